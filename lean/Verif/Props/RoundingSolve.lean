import Verif.Proofs.RoundingLp
import Verif.Props.RoundingStd
import Verif.Props.Solve
import Verif.Props.CmdSolver

/-!
# C72: linear models in arithmetic with rounding errors, from the formulas to the reported point
-/

namespace Verif

set_option linter.unusedSectionVars false

variable {u : ℝ} {A : FlArith u} {H : HashOrder} {W : World (Fl A)} {n n' : ℕ} {solver : SolverFn (Fl A)} {mod' : Model (Fl A)}

/-- **C72** Write a model with the operators in any arithmetic with relative errors of at most `u` per operation, and solve it with any solver whose
answers satisfy the rows of the problem that it was given up to `δ`, the bounds up to `ε` and integrality up to `η`. If `solve` succeeds, every
variable of the model has a number as its final value, and at these values every constraint between linear formulas, taken in exact arithmetic as it
was written, holds up to `δ` (for an equality) or `δ + ε` (for an inequality) and the rounding errors `pairErr` of its two formulas. -/
theorem C72_feasible (hu : 0 ≤ u) (hr : ReachableW H W n) (hs : W.m.solve H solver n = .ok ((.ok (), mod'), n')) {δ ε η : ℝ} (hδ : 0 ≤ δ)
    (hsol : ∀ sp st sol, W.m.SolvedBy H n solver sp st sol → ∃ q ∈ sp.prob.views, ∃ xs : List ℝ, sol.x = xs.map (Fl.num A) ∧ q.LinearWithin δ ε η xs) :
    (∃ t, W.m.Values mod' t) ∧ ∀ t, W.m.Values mod' t →
      (∀ c ∈ W.m.constraints, ∀ f g, c.lhs.Says f → c.rhs.Says g →
        c.kind.Within (δ + (if c.kind = .equal then 0 else ε) + pairErr u f g t) (f.value t) (g.value t)) ∧
      (∀ x, W.m.HasVar x → |t x.id| ≤ 10 ^ 8 + ε) ∧
      ∀ x, W.m.HasVar x → x.isInteger = true → ∃ z : ℤ, |t x.id - z| ≤ η := by
  obtain ⟨sp, k, hsp, -, hres⟩ := solve_ok hs
  rcases hres with ⟨_, -, hbad⟩ | ⟨st, sol, primals, duals, hsol', hx, hmod⟩
  · injection hbad with hbad; cases hbad
  injection hmod with _ hmod
  subst hmod
  obtain ⟨q, hq, xs, hxs, hwith⟩ := hsol _ _ _ ⟨k, hsp, hsol'⟩
  obtain ⟨hp, k', comp, e, ps, cols, xes, ves, hf, -⟩ := hr.facts hsp
  obtain ⟨hlen, hpt⟩ := (hf.pointFacts hq).1 hwith
  have hneg : (negOne ==. (zero : Fl A)) = false := by
    show decide ((-1 : ℝ) = 0) = false
    norm_num
  have hvar : ∀ x, W.m.HasVar x → x ∈ cols := fun x hx => (hf.mem x).2 (hf.mf.col_of_hasVar hneg hx)
  have henv : ∀ x ∈ cols, mapEnv primals x.id = some (Fl.num A (colVal cols xs x)) := by
    intro x hxm
    rw [hx.env hf, pointEnv_col hf.cok hxm, hxs, List.getElem?_map, colVal_get hf.cok hlen hxm]
    rfl
  refine ⟨?_, fun t ht => ?_⟩
  · classical
    refine ⟨fun i => if hi : ∃ x ∈ cols, x.id = i then colVal cols xs hi.choose else 0, fun x hxv => ?_⟩
    have hxm := hvar x hxv
    have hi : ∃ y ∈ cols, y.id = x.id := ⟨x, hxm, rfl⟩
    have he : hi.choose = x := (hf.cok.good _ hi.choose_spec.1).eq_of_id (hf.cok.good _ hxm) hi.choose_spec.2
    show mapEnv primals x.id = _
    rw [henv x hxm]
    beta_reduce
    rw [dif_pos hi, he]
  · have htv : ∀ x, W.m.HasVar x → t x.id = colVal cols xs x := by
      intro x hxv
      have := ht x hxv
      change mapEnv primals x.id = _ at this
      rw [henv x (hvar x hxv)] at this
      injection this with this
      rw [Fl.num_inj] at this
      exact this.symm
    refine ⟨fun c hc f g hfs hgs => ?_, fun x hxv => ?_, fun x hxv hi => ?_⟩
    · rw [← hf.mf.cs] at hc
      obtain ⟨p, hpm, rfl⟩ := List.mem_map.1 hc
      obtain ⟨n1, m1, hn1, -, hok⟩ := hf.mf.piece hpm
      obtain ⟨b, hb, hnum, ⟨x, hk, -, hbnd, herr⟩ | ⟨hk, hlin, -, herr⟩ | ⟨s, hlin, hsl, hbnd, herr⟩⟩ :=
        hf.pieceErr hpm hu hfs hgs (v := colVal cols xs) fun x hx => (htv x hx).symm
      · have hbd := hpt.bounds p hpm _ _ _ hbnd
        obtain ⟨h1, h2⟩ := abs_le.1 herr
        have hne : p.c.kind ≠ .equal := by rw [Ne, hok.equal, hbnd]; simp
        cases hkk : p.c.kind
        · exact absurd hkk hne
        all_goals
          simp only [hkk, CKind.Within, reduceCtorEq, decide_true, decide_false, if_true, if_false, Bool.false_eq_true] at hbd ⊢
          linarith
      · have hrow := hpt.rows p hpm hlin b hb hnum
        simp only [hk, CKind.Within, if_true, add_zero]
        have e1 : f.value t - g.value t = ((p.coefs.map fun q => q.2.val * colVal cols xs q.1).sum + b) -
          (((p.coefs.map fun q => q.2.val * colVal cols xs q.1).sum + b) - (f.value t - g.value t)) := by ring
        rw [e1]
        exact (abs_sub _ _).trans (add_le_add hrow herr)
      · have hrow := hpt.rows p hpm hlin b hb hnum
        have hbd := hpt.bounds p hpm _ _ _ hbnd
        obtain ⟨h1, h2⟩ := abs_le.1 herr
        obtain ⟨h3, h4⟩ := abs_le.1 hrow
        have hne : p.c.kind ≠ .equal := by rw [Ne, hok.equal, hbnd]; simp
        cases hkk : p.c.kind
        · exact absurd hkk hne
        all_goals
          simp only [hkk, CKind.Within, reduceCtorEq, decide_true, decide_false, if_true, if_false, Bool.false_eq_true] at hbd ⊢
          linarith
    · rw [htv x hxv, abs_le]
      obtain ⟨h1, h2⟩ := hpt.box x (hvar x hxv)
      exact ⟨by linarith, h2⟩
    · rw [htv x hxv]
      exact hpt.integral x (hvar x hxv) hi

/-- A model of linear formulas becomes a linear problem: rounding errors never make it a nonlinear one. -/
theorem C72_linear (hu : 0 ≤ u) (hr : ReachableW H W n) {sp : StdProb (Fl A)} {m : ℕ} (hsp : W.m.stdProblem H n = .ok (sp, m))
    {F G : Constraint (Fl A) → LinForm} (hc : ∀ c ∈ W.m.constraints, c.lhs.Says (F c) ∧ c.rhs.Says (G c)) {o : LinForm} (ho : W.m.ObjectiveSays o) :
    (∃ q, sp.prob = .lp q) ∨ ∃ q, sp.prob = .milp q := by
  obtain ⟨hp, k', comp, e, ps, cols, xes, ves, hf, -⟩ := hr.facts hsp
  exact (linear_prob hf hu hc ho).2

/-- Conversely, rounding errors cannot make a model of linear formulas infeasible by more than their size: an assignment `τ` that satisfies the
constraints, in exact arithmetic and as they were written, and the box that the library imposes, gives a point that satisfies every face of the standard
problem up to the rounding errors. -/
theorem C72_point (hu : 0 ≤ u) (hr : ReachableW H W n) {sp : StdProb (Fl A)} {m : ℕ} (hsp : W.m.stdProblem H n = .ok (sp, m)) {E η : ℝ} (hE0 : 0 ≤ E)
    {F G : Constraint (Fl A) → LinForm} (hc : ∀ c ∈ W.m.constraints, c.lhs.Says (F c) ∧ c.rhs.Says (G c)) {τ : ℕ → ℝ}
    (hτ : ∀ c ∈ W.m.constraints, c.kind.Rel ((F c).value τ) ((G c).value τ))
    (hint : ∀ x, W.m.HasVar x → x.isInteger = true → ∃ z : ℤ, |τ x.id - z| ≤ η)
    (hbox : ∀ x, W.m.HasVar x → |τ x.id| ≤ 10 ^ 8)
    (hsbox : ∀ c ∈ W.m.constraints, c.kind ≠ .equal → |(F c).value τ - (G c).value τ| ≤ 10 ^ 8)
    (hE : ∀ c ∈ W.m.constraints, pairErr u (F c) (G c) τ ≤ E) :
    ∃ xs : List ℝ, (∀ q ∈ sp.prob.views, q.LinearWithin E E η xs) ∧
      ∀ x, W.m.HasVar x → pointOf sp.var2index (xs.map (Fl.num A)) x.id = some (Fl.num A (τ x.id)) := by
  obtain ⟨hp, k', comp, e, ps, cols, xes, ves, hf, -⟩ := hr.facts hsp
  have hlift := (lift_facts hf hu hc hE0 hE hτ hbox hsbox hint).congr hf (w := colVal cols (cols.map (liftVal ps τ)))
    fun x hx => (colVal_map hf.cok _ hx).symm
  refine ⟨_, fun q hq => (hf.pointFacts hq).2 ⟨by simp, hlift⟩, fun x hx => ?_⟩
  have hneg : (negOne ==. (zero : Fl A)) = false := by
    show decide ((-1 : ℝ) = 0) = false
    norm_num
  have hxc := (hf.mem x).2 (hf.mf.col_of_hasVar hneg hx)
  rw [hf.v2i, pointOf_eq, pointEnv_col hf.cok hxc, List.getElem?_map, List.getElem?_map, (hf.cok.col hxc).2, Option.map_some, Option.map_some,
    liftVal_var hf hx]

/-- **C72, optimality.** If, in addition, all constraints and the objective are linear formulas, and for each answer of the solver there are multipliers
with which it satisfies the optimality conditions of the problem that the solver was given up to tolerances, then at the final values the objective, taken
in exact arithmetic as it was written, is at most the given amount worse than at any assignment `τ` that satisfies the constraints exactly as they were
written and stays within the box that the library imposes. `N` is the number of columns, `Λ` and `Γ` bound the multipliers, `R` bounds the distance from
`τ`, and `E` the rounding errors of the constraints. -/
theorem C72_optimal (hu : 0 ≤ u) (hr : ReachableW H W n) (hs : W.m.solve H solver n = .ok ((.ok (), mod'), n')) {δ ε η ρ κ Λ Γ R E : ℝ} {N : ℕ}
    (hδ : 0 ≤ δ) (hE0 : 0 ≤ E) {F G : Constraint (Fl A) → LinForm} (hc : ∀ c ∈ W.m.constraints, c.lhs.Says (F c) ∧ c.rhs.Says (G c))
    {o : LinForm} (ho : W.m.ObjectiveSays o)
    (hsol : ∀ sp st sol c, W.m.SolvedBy H n solver sp st sol → sp.prob.costs = some c → sp.var2index.length = N ∧
      ∃ q ∈ sp.prob.views, ∃ xs lam mu pi : List ℝ, sol.x = xs.map (Fl.num A) ∧ q.LinearKkt c δ ε η ρ κ xs lam mu pi ∧
        ∑ i ∈ Finset.range q.na, |lam.getD i 0| ≤ Λ ∧ ∑ j ∈ Finset.range N, (mu.getD j 0 + pi.getD j 0) ≤ Γ)
    {t τ : ℕ → ℝ} (ht : W.m.Values mod' t) (hτ : ∀ c ∈ W.m.constraints, c.kind.Rel ((F c).value τ) ((G c).value τ))
    (hbox : ∀ x, W.m.HasVar x → |τ x.id| ≤ 10 ^ 8)
    (hsbox : ∀ c ∈ W.m.constraints, c.kind ≠ .equal → |(F c).value τ - (G c).value τ| ≤ 10 ^ 8)
    (hR : ∀ x, W.m.HasVar x → |t x.id - τ x.id| ≤ R)
    (hR' : ∀ c ∈ W.m.constraints, c.kind ≠ .equal → |((F c).value t - (G c).value t) - ((F c).value τ - (G c).value τ)| ≤ R)
    (hE : ∀ c ∈ W.m.constraints, pairErr u (F c) (G c) t ≤ E ∧ pairErr u (F c) (G c) τ ≤ E) :
    W.m.NoWorse o (N * (ρ * (R + δ + 2 * E) + 2 * κ) + (δ + E) * Λ + E * Γ + objErr u o t + objErr u o τ) t τ := by
  by_cases hne : W.m.objective = .empty
  · unfold Model.NoWorse; rw [hne]; trivial
  obtain ⟨sp, k, hsp, -, hres⟩ := solve_ok hs
  rcases hres with ⟨_, -, hbad⟩ | ⟨st, sol, primals, duals, hsol', hx, hmod⟩
  · injection hbad with hbad; cases hbad
  injection hmod with _ hmod
  subst hmod
  obtain ⟨hp, k', comp, e, ps, cols, xes, ves, hf, -⟩ := hr.facts hsp
  obtain ⟨hcosts, -⟩ := linear_prob hf hu hc ho
  obtain ⟨hN, q, hq, xs, lam, mu, pi, hxs, hkkt, hΛ, hΓ⟩ := hsol sp st sol _ ⟨k, hsp, hsol'⟩ hcosts
  have hN' : cols.length = N := by rw [← hN, hf.v2i]; simp
  obtain ⟨hlen, hpt⟩ := (hf.pointFacts hq).1 hkkt.within
  have hv := hf.view hq
  have hnx : q.nx = N := by rw [← hN']; simp [Minlp.nx, hv.a, stdA, Coo.cols]
  have hneg : (negOne ==. (zero : Fl A)) = false := by
    show decide ((-1 : ℝ) = 0) = false
    norm_num
  have hvar : ∀ x, W.m.HasVar x → x ∈ cols := fun x hx => (hf.mem x).2 (hf.mf.col_of_hasVar hneg hx)
  have htv : ∀ x, W.m.HasVar x → t x.id = colVal cols xs x := by
    intro x hxv
    have := ht x hxv
    change mapEnv primals x.id = _ at this
    rw [hx.env hf, pointEnv_col hf.cok (hvar x hxv), hxs, List.getElem?_map, colVal_get hf.cok hlen (hvar x hxv)] at this
    injection this with this
    rw [Fl.num_inj] at this
    exact this.symm
  -- the point of `τ`
  have hlift := (lift_facts hf hu hc hE0 (fun c hc => (hE c hc).2) hτ hbox hsbox (η := 1 / 2)
    fun x _ _ => ⟨round (τ x.id), abs_sub_round _⟩).congr hf (w := colVal cols (cols.map (liftVal ps τ)))
    fun x hx => (colVal_map hf.cok _ hx).symm
  have hy := (hf.pointFacts hq).2 ⟨by simp, hlift⟩
  have hps : ∀ p ∈ ps, p.c ∈ W.m.constraints := fun p hp => by rw [← hf.mf.cs]; exact List.mem_map_of_mem hp
  -- distances
  have hD : ∀ x ∈ cols, |colVal cols xs x - liftVal ps τ x| ≤ R + δ + 2 * E := by
    intro x hxc
    rcases (hf.mem x).1 hxc with hold | hsl
    · have hxv : W.m.HasVar x := by
        obtain ⟨hv, ho | ⟨p, hp, ho⟩⟩ := hold
        · exact hf.mf.objVar hv ho
        · exact hf.mf.pieceVar hp hv ho
      rw [liftVal_var hf hxv, ← htv x hxv]
      linarith [hR x hxv]
    · obtain ⟨p, hp', hs⟩ := List.mem_filterMap.1 hsl
      obtain ⟨n1, m1, -, -, hok⟩ := hf.mf.piece hp'
      have hpc := hps p hp'
      have hne : p.c.kind ≠ .equal := by rw [Ne, hok.equal, Piece.bnd_slack hs]; simp
      have hr1 := hR' _ hpc hne
      obtain ⟨he1, he2⟩ := hE _ hpc
      have g1 : |colVal cols xs x - ((F p.c).value t - (G p.c).value t)| ≤ δ + E := by
        obtain ⟨b, hb, hnum, ⟨y, hk, -⟩ | ⟨-, -, hs', -⟩ | ⟨s', hlin, hs', -, herr⟩⟩ :=
          hf.pieceErr hp' hu (hc _ hpc).1 (hc _ hpc).2 (v := colVal cols xs) fun x hx => (htv x hx).symm
        · simp [Piece.slack, hk] at hs
        · rw [hs] at hs'; cases hs'
        · rw [hs] at hs'
          injection hs' with hs'
          subst hs'
          have hrow := hpt.rows p hp' hlin b hb hnum
          obtain ⟨h1, h2⟩ := abs_le.1 herr
          obtain ⟨h3, h4⟩ := abs_le.1 hrow
          rw [abs_le]
          constructor <;> linarith
      have g2 : |liftVal ps τ x - ((F p.c).value τ - (G p.c).value τ)| ≤ E := by
        obtain ⟨b, hb, hnum, ⟨y, hk, -⟩ | ⟨-, -, hs', -⟩ | ⟨s', hlin, hs', -, herr⟩⟩ :=
          hf.pieceErr hp' hu (hc _ hpc).1 (hc _ hpc).2 (t := τ) (v := liftVal ps τ) fun x hx => liftVal_var hf hx τ
        · simp [Piece.slack, hk] at hs
        · rw [hs] at hs'; cases hs'
        · rw [hs] at hs'
          injection hs' with hs'
          subst hs'
          have hrow := liftVal_row hf hp' hs hlin τ
          rw [hb, Fl.val_num] at hrow
          rw [hrow, zero_add] at herr
          exact herr.trans he2
      obtain ⟨a1, a2⟩ := abs_le.1 g1
      obtain ⟨a3, a4⟩ := abs_le.1 g2
      obtain ⟨a5, a6⟩ := abs_le.1 hr1
      rw [abs_le]
      constructor <;> linarith
  -- numbers of the problem
  have hcolj : ∀ j < N, ∃ x ∈ cols, cols[j]? = some x ∧ colOf cols x = j := by
    intro j hj
    have hlt : j < cols.length := by omega
    exact ⟨cols[j], List.getElem_mem hlt, List.getElem?_eq_getElem hlt, hf.cok.col_get hlt⟩
  have hbnum : ∀ i < q.na, ∃ y, q.b[i]? = some (Fl.num A y) := by
    intro i hi
    have hm := List.getElem_mem (l := q.b) hi
    rw [List.getElem?_eq_getElem (l := q.b) hi]
    generalize q.b[i]'hi = w at hm
    rw [hv.b, hf.mf.constr] at hm
    simp only [ConstrComp.concat, List.flatMap_map, List.mem_flatMap] at hm
    obtain ⟨p, hp', hm⟩ := hm
    obtain ⟨n1, m1, -, -, hok⟩ := hf.mf.piece hp'
    obtain ⟨b, hb, -⟩ := hok.linErr hu (hc _ (hps p hp')).1 (hc _ (hps p hp')).2 0
    simp only [Piece.out] at hm
    split at hm
    · rw [List.mem_singleton] at hm
      exact ⟨-b, by rw [hm, hb]; rfl⟩
    · cases hm
  have hrnum : ∀ i, ∀ e ∈ rowOf q.a.triplets i, ∃ v, e.2 = Fl.num A v := by
    intro i e' he'
    rw [hv.a, rowOf_stdA] at he'
    obtain ⟨d, hd, rfl⟩ := List.mem_map.1 he'
    unfold entriesOf at hd
    obtain ⟨d', hd', rfl⟩ := List.mem_map.1 hd
    have hd' := (List.mem_filter.1 hd').1
    rw [hf.mf.constr] at hd'
    simp only [ConstrComp.concat, List.flatMap_map, List.mem_flatMap] at hd'
    obtain ⟨p, hp', hm⟩ := hd'
    simp only [Piece.out, List.mem_map] at hm
    obtain ⟨c', hc', rfl⟩ := hm
    obtain ⟨b, -, hnum, -⟩ := hf.pieceErr hp' hu (hc _ (hps p hp')).1 (hc _ (hps p hp')).2 (t := τ) (v := liftVal ps τ) fun x hx => liftVal_var hf hx τ
    exact hnum c' hc'
  have hunum : ∀ j < N, ∃ y, q.u[j]? = some (Fl.num A y) := by
    intro j hj
    obtain ⟨x, -, hxj, -⟩ := hcolj j hj
    obtain ⟨up, a1, -⟩ := Fl.tightest_up (A := A) (10 ^ 8) comp.constr.u x
    exact ⟨up, by rw [hv.u, stdU, List.getElem?_map, hxj]; exact congrArg some a1⟩
  have hlnum : ∀ j < N, ∃ y, q.l[j]? = some (Fl.num A y) := by
    intro j hj
    obtain ⟨x, -, hxj, -⟩ := hcolj j hj
    obtain ⟨lo, a1, -⟩ := Fl.tightest_lo (A := A) (-(10 ^ 8)) comp.constr.l x
    exact ⟨lo, by rw [hv.l, stdL, List.getElem?_map, hxj]; exact congrArg some a1⟩
  let T : List (ℕ × ℕ × ℝ) := q.a.triplets.map fun e => (e.1, e.2.1, e.2.2.val)
  have hTrow : ∀ (zs : List ℝ) i, ((T.filter fun e => e.1 == i).map fun e => e.2.2 * zs.getD e.2.1 0).sum =
      ((rowOf q.a.triplets i).map fun e => e.2.val * zs.getD e.1 0).sum := by
    intro zs i
    simp only [T, rowOf, List.filter_map, List.map_map, Function.comp_def]
  have hTcol : ∀ j, ((T.filter fun e => e.2.1 == j).map fun e => e.2.2 * lam.getD e.1 0).sum =
      ((q.a.triplets.filter fun e => e.2.1 == j).map fun e => e.2.2.val * lam.getD e.1 0).sum := by
    intro j
    simp only [T, List.filter_map, List.map_map, Function.comp_def]
  have hTlt : ∀ e ∈ T, e.2.1 < N := by
    intro e' he'
    obtain ⟨d, hd, rfl⟩ := List.mem_map.1 he'
    rw [hv.a] at hd
    have hmem := (List.of_mem_zip (List.of_mem_zip hd).2).1
    simp only [stdA, linP, List.map_map, List.mem_map, Function.comp] at hmem
    obtain ⟨d', hd', hd''⟩ := hmem
    have := (hf.cok.col (hf.cmpOk.a d' hd')).1
    rw [← hd'']
    omega
  have hget : ∀ (zs : List ℝ), zs.length = N → ∀ j < N, zs[j]? = some (zs.getD j 0) := by
    intro zs hz j hj
    rw [List.getD_eq_getElem?_getD, List.getElem?_eq_getElem (by omega)]
    rfl
  have hxlen : xs.length = N := by omega
  have hylen : (cols.map (liftVal ps τ)).length = N := by simpa using hN'
  have hdual := weak_duality (N := N) (m := q.na) (T := T) hTlt (c := fun j => (((stdC cols comp)[j]?).getD zero).val)
    (x := fun j => xs.getD j 0) (y := fun j => (cols.map (liftVal ps τ)).getD j 0) (mu := fun j => mu.getD j 0) (pi := fun j => pi.getD j 0)
    (lo := fun j => ((q.l[j]?).getD zero).val) (up := fun j => ((q.u[j]?).getD zero).val) (b := fun i => ((q.b[i]?).getD zero).val)
    (lam := fun i => lam.getD i 0) (δ := δ) (E := E) (ρ := ρ) (κ := κ) (D := R + δ + 2 * E)
    (fun i hi => by rw [List.getD_eq_getElem?_getD, List.getElem?_eq_none (by rw [hkkt.lamLen]; exact hi)]; rfl)
    (fun i hi => by
      obtain ⟨y, hy⟩ := hbnum i hi
      rw [hTrow, hy]
      exact hkkt.within.rows i y hy (hrnum i))
    (fun i hi => by
      obtain ⟨y, hy'⟩ := hbnum i hi
      rw [hTrow, hy']
      exact hy.rows i y hy' (hrnum i))
    (fun j hj => (hkkt.nonneg j (by omega)).1) (fun j hj => (hkkt.nonneg j (by omega)).2)
    (fun j hj => by
      obtain ⟨y, hy⟩ := hunum j hj
      rw [hy]
      exact hkkt.upper j y hy)
    (fun j hj => by
      obtain ⟨y, hy⟩ := hlnum j hj
      rw [hy]
      exact hkkt.lower j y hy)
    (fun j hj => by
      obtain ⟨y, hy'⟩ := hunum j hj
      rw [hy']
      exact hy.upper j _ y (hget _ hylen j hj) hy')
    (fun j hj => by
      obtain ⟨y, hy'⟩ := hlnum j hj
      rw [hy']
      exact hy.lower j _ y (hget _ hylen j hj) hy')
    (fun j hj => by
      obtain ⟨x, hxc, hxj, hxo⟩ := hcolj j hj
      have h1 := hD x hxc
      rw [← colVal_map hf.cok (liftVal ps τ) hxc] at h1
      simp only [colVal, hxo] at h1
      exact h1)
    (fun j hj => by
      rw [hTcol]
      obtain ⟨x, hxc, hxj, hxo⟩ := hcolj j hj
      have h1 : (stdC cols comp)[j]? = some (valAt comp.obj.prop.a zero x) := by rw [stdC, List.getElem?_map, hxj]; rfl
      rw [h1]
      exact hkkt.stationary j _ h1)
  -- the objective
  obtain ⟨o', hos, hmag, hops, hval⟩ := objective_says hf hu ho hne
  have hobj : ∀ zs : List ℝ, zs.length = N → ∑ j ∈ Finset.range N, (((stdC cols comp)[j]?).getD zero).val * zs.getD j 0 =
      (e.stdProperties.a.map fun q => q.2.val * colVal cols zs q.1).sum := by
    intro zs hz
    rw [← hf.mf.objProp.2, ← costs_sum hf.cok (colVal cols zs) comp.obj.prop.a hf.cmpOk.paNd hf.cmpOk.pa, ← hN', Finset.sum_range,
      ← List.sum_ofFn]
    congr 1
    refine List.ext_getElem (by simp) fun i h1 h2 => ?_
    simp only [List.length_map] at h2
    simp only [List.getElem_ofFn, List.getElem_map, stdC, List.getElem?_map, List.getElem?_eq_getElem h2, Option.map_some, Option.getD_some, colVal,
      hf.cok.col_get h2]
  rw [hobj _ hxlen, hobj _ hylen] at hdual
  have hkeyv : ∀ q ∈ e.stdProperties.a, W.m.HasVar q.1 := by
    intro q' hq'
    have hk := (stdProperties_keys e).2.1 q'.1 (List.mem_map_of_mem hq')
    exact hf.mf.objVar hk.1 hk.2
  have e1 : (e.stdProperties.a.map fun q => q.2.val * colVal cols xs q.1) = e.stdProperties.a.map fun q => q.2.val * t q.1.id :=
    List.map_congr_left fun q hq => by rw [htv _ (hkeyv q hq)]
  have e2 : (e.stdProperties.a.map fun q => q.2.val * colVal cols (cols.map (liftVal ps τ)) q.1) = e.stdProperties.a.map fun q => q.2.val * τ q.1.id :=
    List.map_congr_left fun q hq => by rw [colVal_map hf.cok _ (hvar _ (hkeyv q hq)), liftVal_var hf (hkeyv q hq)]
  rw [e1, e2] at hdual
  have hpow : ∀ s, ((1 + u) ^ o'.ops - 1) * (∑ i ∈ o'.vars, o'.size i * |s i| + o'.sizeConst) ≤ objErr u o s := by
    intro s
    have hm : ∑ i ∈ o'.vars, o'.size i * |s i| + o'.sizeConst = o.mag s := by rw [← hmag]; rfl
    rw [hm]
    have hm0 : 0 ≤ o.mag s := by
      rw [← hmag]
      have h0 : ∀ i, 0 ≤ o'.size i := fun i => (abs_nonneg _).trans (hos.1.coef_le hu i)
      obtain ⟨y, -, -, h3⟩ := writesLinear_const hu hos.1
      exact add_nonneg (Finset.sum_nonneg fun i _ => mul_nonneg (h0 i) (abs_nonneg _)) ((abs_nonneg _).trans h3)
    refine mul_le_mul_of_nonneg_right ?_ hm0
    have := pow_le_pow_right₀ (show (1 : ℝ) ≤ 1 + u by linarith) hops
    linarith
  have f1 := (C71_function hu hos.1 hos.2 t).trans (hpow t)
  have f2 := (C71_function hu hos.1 hos.2 τ).trans (hpow τ)
  obtain ⟨g1, g2⟩ := abs_le.1 f1
  obtain ⟨g3, g4⟩ := abs_le.1 f2
  have hmul : (δ + E) * ∑ i ∈ Finset.range q.na, |lam.getD i 0| ≤ (δ + E) * Λ := mul_le_mul_of_nonneg_left hΛ (by linarith)
  have hmul' : E * ∑ j ∈ Finset.range N, (mu.getD j 0 + pi.getD j 0) ≤ E * Γ := mul_le_mul_of_nonneg_left hΓ hE0
  have hv1 : ∀ s, ∑ i ∈ o'.vars, o'.coef i * s i + o'.const = o'.value s := fun s => rfl
  rw [hv1] at g1 g2 g3 g4
  unfold Model.NoWorse
  rcases hval with ⟨⟨f, hf1⟩, hval⟩ | ⟨⟨f, hf1⟩, hval⟩
  · rw [hf1]
    simp only
    rw [hval] at g1 g2 g3 g4
    linarith
  · rw [hf1]
    simp only
    rw [hval] at g1 g2 g3 g4
    linarith

/-! ## An example: `minimise 2 * (x + 3) subject to 2 * (x + 3) <= 5 * y and x >= 5`, in the arithmetic in which every result is too large by an eighth -/

/-- The constraint `2 * (x + 3) <= 5 * y`. -/
noncomputable def eighthC1 : Constraint (Fl eighth) := ⟨11, eighthT, .lessEqual, eighthR, ""⟩
/-- The constraint `x >= 5`. -/
noncomputable def eighthC2 : Constraint (Fl eighth) := ⟨13, eighthX, .greaterEqual, .const 12 (Fl.num eighth 5), ""⟩
/-- The state of the program after the model has been written. -/
noncomputable def eighthW : World (Fl eighth) :=
  ⟨[eighthX, eighthY, eighthS, eighthT, eighthR], [eighthC1, eighthC2], ⟨.minimize eighthT, [eighthC1, eighthC2], [], none, [], []⟩, none⟩

theorem eighthW_reach : ReachableW HashOrder.listOrder eighthW 14 := by
  refine ⟨[.expr (.var "x" .continuous), .expr (.var "y" .continuous), .expr (.addScalar 0 (Fl.num eighth 3)), .expr (.scalarMul (Fl.num eighth 2) 2),
    .expr (.scalarMul (Fl.num eighth 5) 1), .cmpNodeNode .lessEqual 3 4 "", .cmpNodeScalar .greaterEqual 0 (Fl.num eighth 5) "", .addConstraint 0, .addConstraint 1, .minimize 3], ?_⟩
  have hs : addS eighthX (Fl.num eighth 3) 2 = .ok (eighthS, 5) := by
    have h3 : FloatOps.add (Fl.num eighth 0) (Fl.num eighth 3) = Fl.num eighth (27 / 8) := by
      show Fl.num eighth (9 / 8 * (0 + 3)) = _; norm_num
    simp [addS, eighth_eq_false, M.bind, gather, eighthX, h3, finishAdd, newAdd, M.fresh, M.pure, newConst, eighthS]
  have ht : sMul (Fl.num eighth 2) eighthS 5 = .ok (eighthT, 9) := by
    have h3 : FloatOps.mul (Fl.num eighth 2) (Fl.num eighth (27 / 8)) = Fl.num eighth (243 / 32) := by
      show Fl.num eighth (9 / 8 * (2 * (27 / 8))) = _; norm_num
    simp [sMul, sMul.sMulL, eighth_eq_false, M.bind, eighthX, h3, newAdd, newMul, M.fresh, M.pure, newConst, eighthS, eighthT]
  have hr : sMul (Fl.num eighth 5) eighthY 9 = .ok (eighthR, 11) := by
    simp [sMul, eighth_eq_false, M.bind, eighthY, newMul, M.fresh, M.pure, newConst, eighthR]
  have e3 : Cmd.exec HashOrder.listOrder ⟨[eighthX, eighthY], [], Model.new, none⟩ (.expr (.addScalar 0 (Fl.num eighth 3))) 2 =
      .ok (⟨[eighthX, eighthY, eighthS], [], Model.new, none⟩, 5) := by simp [Cmd.exec, Op.exec, M.bind, hs, M.pure]
  have e4 : Cmd.exec HashOrder.listOrder ⟨[eighthX, eighthY, eighthS], [], Model.new, none⟩ (.expr (.scalarMul (Fl.num eighth 2) 2)) 5 =
      .ok (⟨[eighthX, eighthY, eighthS, eighthT], [], Model.new, none⟩, 9) := by simp [Cmd.exec, Op.exec, M.bind, ht, M.pure]
  have e5 : Cmd.exec HashOrder.listOrder ⟨[eighthX, eighthY, eighthS, eighthT], [], Model.new, none⟩ (.expr (.scalarMul (Fl.num eighth 5) 1)) 9 =
      .ok (⟨[eighthX, eighthY, eighthS, eighthT, eighthR], [], Model.new, none⟩, 11) := by simp [Cmd.exec, Op.exec, M.bind, hr, M.pure]
  simp only [runCmds, World.start]
  rw [M.bind_ok_eq (a := ⟨[eighthX], [], Model.new, none⟩) (k := 1) rfl, M.bind_ok_eq (a := ⟨[eighthX, eighthY], [], Model.new, none⟩) (k := 2) rfl,
    M.bind_ok_eq e3, M.bind_ok_eq e4, M.bind_ok_eq e5]
  rfl

/-- The standard components of the example: the bound `5` has become `3645 / 512 > 7`, and the cost `2` has become `9 / 4`. -/
theorem eighthComp : ∃ comp k, eighthW.m.stdComponents HashOrder.listOrder 14 = .ok (comp, k) ∧
    (∃ z, comp.obj.prop.a = [(eighthX, z)] ∧ z = Fl.num eighth (9 / 4)) ∧ (∃ b, comp.constr.b = [b]) ∧
    comp.constr.l = [(eighthX, Fl.num eighth (3645 / 512), eighthC2)] ∧ comp.constr.f = [] := by
  have hobj : ∃ c, eighthT.stdComponents HashOrder.listOrder 14 = .ok (c, 16) ∧ c.prop = eighthT.stdProperties := ⟨_, rfl, rfl⟩
  obtain ⟨c0, h0, p0⟩ := hobj
  unfold Model.stdComponents Model.objComponents
  simp only [eighthW]
  rw [M.bind_ok_eq h0]
  have hexp : subN eighthT eighthR 16 = .ok (.add 19 [.mul 6 (.const 5 (Fl.num eighth 2)) eighthX, .mul 17 (.const 16 (Fl.num eighth (-1))) eighthR,
      .const 18 (Fl.num eighth (2187 / 256))], 20) := by
    have h3 : FloatOps.add (Fl.num eighth 0) (Fl.num eighth (243 / 32)) = Fl.num eighth (2187 / 256) := by
      show Fl.num eighth (9 / 8 * (0 + 243 / 32)) = _; norm_num
    simp [subN, sMul, addN, Node.isConstVal, gather, gatherArgs, finishAdd, eighth_eq_false, eighth_eq_false (show (-1 : ℝ) ≠ 1 by norm_num), M.bind,
      eighthX, eighthY, h3, newAdd, newMul, M.fresh, M.pure, newConst, eighthT, eighthR]
  have h1 : ∃ r k, Constraint.stdComponents HashOrder.listOrder eighthC1 0 0 16 = .ok ((r, 1, 0), k) ∧ (∃ b, r.b = [b]) ∧ r.l = [] ∧ r.f = [] := by
    unfold Constraint.stdComponents eighthC1 M.bind
    simp only [hexp]
    exact ⟨_, _, rfl, ⟨_, rfl⟩, rfl, rfl⟩
  obtain ⟨r1, k1, h1, ⟨b, hb⟩, hl, hf⟩ := h1
  have hexp2 : subN eighthX (.const 12 (Fl.num eighth 5)) k1 = .ok (.add (k1 + 2) [eighthX, .const (k1 + 1) (Fl.num eighth (-405 / 64))], k1 + 3) := by
    have h2 : eighth.mul (-1) 5 = -45 / 8 := by show 9 / 8 * (-1 * 5) = (_ : ℝ); norm_num
    have h3 : eighth.add 0 (-45 / 8) = -405 / 64 := by show 9 / 8 * (0 + -45 / 8) = (_ : ℝ); norm_num
    simp [subN, sMul, addN, Node.isConstVal, gather, finishAdd, eighth_eq_false, eighth_eq_false (show (-45 / 8 : ℝ) ≠ 0 by norm_num),
      eighth_eq_false (show (-405 / 64 : ℝ) ≠ 0 by norm_num), M.bind, eighthX, h2, h3, newAdd, M.fresh, M.pure, newConst]
  have h2 : ∃ r k, Constraint.stdComponents HashOrder.listOrder eighthC2 1 0 k1 = .ok ((r, 1, 0), k) ∧ r.b = [] ∧
      r.l = [(eighthX, Fl.num eighth (3645 / 512), eighthC2)] ∧ r.f = [] := by
    have hc : ∃ c k, Node.stdComponents HashOrder.listOrder (.add (k1 + 2) [eighthX, .const (k1 + 1) (Fl.num eighth (-405 / 64))]) (k1 + 3) = .ok (c, k) ∧
      c.prop = Node.stdProperties (.add (k1 + 2) [eighthX, .const (k1 + 1) (Fl.num eighth (-405 / 64))]) := ⟨_, _, rfl, rfl⟩
    obtain ⟨c, k, hc, hp⟩ := hc
    have hp' : c.prop = ⟨true, [(eighthX, Fl.num eighth 1)], Fl.num eighth (-3645 / 512)⟩ := by
      rw [hp]
      have h3 : eighth.add (eighth.add 0 0) (-405 / 64) = -3645 / 512 := by show 9 / 8 * (9 / 8 * (0 + 0) + -405 / 64) = (_ : ℝ); norm_num
      rw [← h3]
      rfl
    have hb : eighthC2.boundVar c.prop = some eighthX := by
      rw [hp']
      simp [Constraint.boundVar, eighthC2, Fl.one_def, Fl.eq_num.2]
    unfold Constraint.stdComponents
    rw [show eighthC2.lhs = eighthX from rfl, show eighthC2.rhs = .const 12 (Fl.num eighth 5) from rfl, M.bind_ok_eq hexp2, M.bind_ok_eq hc]
    simp only [hb]
    simp only [hp', eighthC2]
    refine ⟨_, _, rfl, rfl, ?_, rfl⟩
    have h4 : -(-3645 / 512) = (3645 / 512 : ℝ) := by norm_num
    rw [← h4]
    rfl
  obtain ⟨r2, k2, h2, hb2, hl2, hf2⟩ := h2
  have h3 : constrLoop HashOrder.listOrder (ConstrComp.empty, 0, 0) [eighthC1, eighthC2] 16 = .ok (((ConstrComp.empty.append r1).append r2, 1, 0), k2) := by
    simp only [constrLoop]
    rw [M.bind_ok_eq h1]
    simp only
    rw [M.bind_ok_eq h2]
    rfl
  rw [M.bind_ok_eq h3]
  refine ⟨_, _, rfl, ⟨_, ?_, rfl⟩, ⟨b, ?_⟩, ?_, ?_⟩
  · rw [p0]
    have h4 : eighth.mul 1 2 = 9 / 4 := by show 9 / 8 * (1 * 2) = (_ : ℝ); norm_num
    rw [← h4]
    rfl
  · simp [ConstrComp.append, ConstrComp.empty, hb, hb2]
  · simp [ConstrComp.append, ConstrComp.empty, hl, hl2]
  · simp [ConstrComp.append, ConstrComp.empty, hf, hf2]


/-- The formulas of the left-hand sides, `2 * x + 6` and `x`. -/
noncomputable def eighthFF (c : Constraint (Fl eighth)) : LinForm :=
  if c.kind = .lessEqual then ⟨{0}, (2 : ℝ) • Pi.single 0 1, 2 * (0 + 3), (|2| : ℝ) • Pi.single 0 1, |2| * (0 + |3|), 1 + 2 + 1⟩
  else ⟨{0}, Pi.single 0 1, 0, Pi.single 0 1, 0, 1⟩

/-- The formulas of the right-hand sides, `5 * y` and `5`. -/
noncomputable def eighthGG (c : Constraint (Fl eighth)) : LinForm :=
  if c.kind = .lessEqual then ⟨{1}, (5 : ℝ) • Pi.single 1 1, 5 * 0, (|5| : ℝ) • Pi.single 1 1, |5| * 0, 1 + 1⟩
  else ⟨∅, 0, 5, 0, |5|, 1⟩

theorem eighth_says : ∀ c ∈ eighthW.m.constraints, c.lhs.Says (eighthFF c) ∧ c.rhs.Says (eighthGG c) := by
  intro c hc
  simp only [eighthW, List.mem_cons, List.not_mem_nil, or_false] at hc
  rcases hc with rfl | rfl
  · refine ⟨⟨eighthT_linear, ?_⟩, ⟨eighthR_linear, ?_⟩⟩
    · intro i hi
      have : i ≠ 0 := by simpa [eighthFF, eighthC1] using hi
      simp [eighthFF, eighthC1, this]
    · intro i hi
      have : i ≠ 1 := by simpa [eighthGG, eighthC1] using hi
      simp [eighthGG, eighthC1, this]
  · refine ⟨⟨.var (n := 0) rfl, ?_⟩, ⟨.const (n := 12) 5 rfl, ?_⟩⟩
    all_goals
      intro i hi
      simp_all [eighthFF, eighthGG, eighthC2]

theorem eighth_objective : eighthW.m.ObjectiveSays (eighthFF eighthC1) := (eighth_says eighthC1 (by simp [eighthW])).1

theorem eighth_vars {x : Node (Fl eighth)} (h : eighthW.m.HasVar x) : x = eighthX ∨ x = eighthY := by
  obtain ⟨hv, h⟩ := h
  have oc : ∀ i v, ¬ Occurs x (.const i v) := fun i v h => by
    rw [occurs_iff] at h
    simp only [Node.arguments, List.not_mem_nil, false_and, exists_false, or_false] at h
    rw [h] at hv
    simp [Node.isVar] at hv
  have ov : ∀ i s k, Occurs x (.var i s k) → x = .var i s k := fun i s k h => by
    rw [occurs_iff] at h
    simpa [Node.arguments] using h
  have om : ∀ i a b, Occurs x (.mul i a b) → Occurs x a ∨ Occurs x b := fun i a b h => by
    rw [occurs_iff] at h
    rcases h with rfl | h
    · simp [Node.isVar] at hv
    · simpa [Node.arguments] using h
  have oa : ∀ i a b, Occurs x (.add i [a, b]) → Occurs x a ∨ Occurs x b := fun i a b h => by
    rw [occurs_iff] at h
    rcases h with rfl | h
    · simp [Node.isVar] at hv
    · simpa [Node.arguments] using h
  have hT : Occurs x eighthT → x = eighthX := by
    intro h
    rcases oa _ _ _ h with h | h
    · exact ov _ _ _ ((om _ _ _ h).resolve_left (oc _ _))
    · exact absurd h (oc _ _)
  have hR : Occurs x eighthR → x = eighthY := by
    intro h
    exact ov _ _ _ ((om _ _ _ h).resolve_left (oc _ _))
  rcases h with ⟨f, hf | hf, ho⟩ | ⟨c, hc, ho⟩
  · simp only [eighthW, Objective.minimize.injEq] at hf
    exact .inl (hT (hf ▸ ho))
  · simp [eighthW] at hf
  · simp only [eighthW, List.mem_cons, List.not_mem_nil, or_false] at hc
    rcases hc with rfl | rfl
    · exact ho.imp hT hR
    · rcases ho with ho | ho
      · exact .inl (ov _ _ _ ho)
      · exact absurd ho (oc _ _)

/-- `x = a`, `y = b` -/
def eighthAt (a b : ℝ) : ℕ → ℝ := fun i => if i = 0 then a else b

theorem eighth_value (a b : ℝ) : (eighthFF eighthC1).value (eighthAt a b) = 2 * a + 6 ∧ (eighthGG eighthC1).value (eighthAt a b) = 5 * b ∧
    (eighthFF eighthC2).value (eighthAt a b) = a ∧ (eighthGG eighthC2).value (eighthAt a b) = 5 := by
  simp [LinForm.value, eighthFF, eighthGG, eighthC1, eighthC2, eighthAt]
  norm_num

theorem eighth_err {a b : ℝ} (ha : |a| ≤ 8) (hb : |b| ≤ 5) : ∀ c ∈ eighthW.m.constraints, pairErr (1 / 8) (eighthFF c) (eighthGG c) (eighthAt a b) ≤ 80 := by
  intro c hc
  simp only [eighthW, List.mem_cons, List.not_mem_nil, or_false] at hc
  rcases hc with rfl | rfl
  · simp [pairErr, LinForm.mag, eighthFF, eighthGG, eighthC1, eighthAt]
    norm_num
    linarith
  · simp [pairErr, LinForm.mag, eighthFF, eighthGG, eighthC2, eighthAt]
    norm_num
    linarith

theorem eighth_exact {a b : ℝ} (h1 : 2 * a + 6 ≤ 5 * b) (h2 : 5 ≤ a) :
    ∀ c ∈ eighthW.m.constraints, c.kind.Rel ((eighthFF c).value (eighthAt a b)) ((eighthGG c).value (eighthAt a b)) := by
  intro c hc
  obtain ⟨v1, v2, v3, v4⟩ := eighth_value a b
  simp only [eighthW, List.mem_cons, List.not_mem_nil, or_false] at hc
  rcases hc with rfl | rfl
  · rw [v1, v2]; exact h1
  · rw [v3, v4]; exact h2


/-- The example: a solver that answers `x = 8`, `y = 5` makes the call succeed, and meets the hypotheses of `C72_feasible` and `C72_optimal`. -/
theorem eighth_solved : ∃ (solver : SolverFn (Fl eighth)) (mod' : Model (Fl eighth)) (n' N : ℕ),
    eighthW.m.solve HashOrder.listOrder solver 14 = .ok ((.ok (), mod'), n') ∧ eighthW.m.Values mod' (eighthAt 8 5) ∧
    (∀ sp st sol, eighthW.m.SolvedBy HashOrder.listOrder 14 solver sp st sol → ∃ q ∈ sp.prob.views, ∃ xs : List ℝ, sol.x = xs.map (Fl.num eighth) ∧ q.LinearWithin 80 80 0 xs) ∧
    (∀ sp st sol c, eighthW.m.SolvedBy HashOrder.listOrder 14 solver sp st sol → sp.prob.costs = some c → sp.var2index.length = N ∧
      ∃ q ∈ sp.prob.views, ∃ xs lam mu pi : List ℝ, sol.x = xs.map (Fl.num eighth) ∧ q.LinearKkt c 80 80 0 0 2 xs lam mu pi ∧
        ∑ i ∈ Finset.range q.na, |lam.getD i 0| ≤ 0 ∧ ∑ j ∈ Finset.range N, (mu.getD j 0 + pi.getD j 0) ≤ N * (9 / 4)) := by
  classical
  obtain ⟨h0, hw⟩ := eighthW_reach.inv
  obtain ⟨comp, k, hcomp, ⟨z, hz, rfl⟩, -, hl, -⟩ := eighthComp
  obtain ⟨hp1, -, -, -, e', ps, hmf⟩ := spec_modelComp (H := HashOrder.listOrder) hw.heap hw.model comp k hcomp
  obtain ⟨sp, xes, ves, cols, m', hsp, -, hf⟩ := stdProblem_after hmf hw.initNd hcomp
  have hu : (0 : ℝ) ≤ 1 / 8 := by norm_num
  obtain ⟨hcosts, -⟩ := linear_prob hf hu eighth_says eighth_objective
  obtain ⟨v1, v2, v3, v4⟩ := eighth_value 8 5
  obtain ⟨xs, hxs, hpt⟩ := C72_point hu eighthW_reach hsp (E := 80) (η := 0) (by norm_num) eighth_says (τ := eighthAt 8 5) (eighth_exact (by norm_num) (by norm_num))
    (by intro x hx hi
        rcases eighth_vars hx with rfl | rfl <;> cases hi)
    (by intro x hx
        rcases eighth_vars hx with rfl | rfl
        · show |(8 : ℝ)| ≤ _; rw [abs_le]; constructor <;> norm_num
        · show |(5 : ℝ)| ≤ _; rw [abs_le]; constructor <;> norm_num)
    (by intro c hc _
        simp only [eighthW, List.mem_cons, List.not_mem_nil, or_false] at hc
        rcases hc with rfl | rfl
        · rw [v1, v2, abs_le]; constructor <;> norm_num
        · rw [v3, v4, abs_le]; constructor <;> norm_num)
    (eighth_err (by norm_num) (by norm_num))
  have hne : sp.prob.views ≠ [] := by cases sp.prob <;> simp [Problem.views]
  obtain ⟨q, hq⟩ := List.exists_mem_of_ne_nil _ hne
  have hv := hf.view hq
  have hnx : q.nx = cols.length := by simp [Minlp.nx, hv.a, stdA, Coo.cols]
  obtain ⟨res, mod', n', hsolve, -, hok⟩ := C55_fits
    (solver := fun _ => .ok (.ok (.solved, ⟨xs.map (Fl.num eighth), List.replicate q.na zero, List.replicate q.nf zero, List.replicate q.nx zero, List.replicate q.nx zero⟩)))
    eighthW_reach hsp rfl (by
      intro st sol' he
      rw [Except.ok.injEq, Prod.mk.injEq] at he
      exact ⟨q, hq, by rw [← he.2]; exact ⟨by simp [(hxs q hq).len], by simp, by simp, by simp, by simp⟩⟩)
  obtain rfl := (hok _ _ rfl).1
  refine ⟨_, mod', n', cols.length, hsolve, ?_, ?_, ?_⟩
  · intro x hx
    obtain ⟨sp', st, sol, ⟨m1, hsp', hso⟩, -, -, hnd, hget, hvar⟩ := C31_primals eighthW_reach hsolve
    rw [hsp] at hsp'
    cases hsp'
    cases hso
    have hneg : (negOne ==. (zero : Fl eighth)) = false := by
      show decide ((-1 : ℝ) = 0) = false
      norm_num
    obtain ⟨sp2, k2, hsp2, -, hres⟩ := solve_ok hsolve
    rcases hres with ⟨_, -, hbad⟩ | ⟨st, sol, primals, duals, hsol', hx', hmod⟩
    · injection hbad with hbad; cases hbad
    cases hmod
    cases hsol'
    rw [hsp] at hsp2
    cases hsp2
    show mapEnv primals x.id = _
    rw [hx'.env hf, ← pointOf_eq, ← hf.v2i]
    exact hpt x hx
  · intro sp' st sol hs
    obtain ⟨m1, hsp', hso⟩ := hs
    rw [hsp] at hsp'
    cases hsp'
    cases hso
    exact ⟨q, hq, xs, rfl, hxs q hq⟩
  · intro sp' st sol c hs hc
    obtain ⟨m1, hsp', hso⟩ := hs
    rw [hsp] at hsp'
    cases hsp'
    cases hso
    rw [hcosts] at hc
    cases hc
    have hpi : ∀ j, (cols.map fun y => if y.ptrEq eighthX then (9 / 4 : ℝ) else 0).getD j 0 = 0 ∨
        ∃ hj : j < cols.length, cols[j].ptrEq eighthX = true ∧ (cols.map fun y => if y.ptrEq eighthX then (9 / 4 : ℝ) else 0).getD j 0 = 9 / 4 := by
      intro j
      by_cases hj : j < cols.length
      · by_cases hx : cols[j].ptrEq eighthX = true
        · exact .inr ⟨hj, hx, by simp [List.getD, hj, hx]⟩
        · exact .inl (by simp [List.getD, hj, hx])
      · exact .inl (by simp [List.getD, hj])
    have hlam : ∀ i, (List.replicate q.na (0 : ℝ)).getD i 0 = 0 := by
      intro i
      simp only [List.getD, List.getElem?_replicate]
      split <;> rfl
    have hneg : (negOne ==. (zero : Fl eighth)) = false := by
      show decide ((-1 : ℝ) = 0) = false
      norm_num
    have hX : eighthW.m.HasVar eighthX := ⟨rfl, .inr ⟨eighthC2, by simp [eighthW], .inl (.refl _)⟩⟩
    have hXc : eighthX ∈ cols := (hf.mem _).2 (hf.mf.col_of_hasVar hneg hX)
    have heq : ∀ j (hj : j < cols.length), cols[j].ptrEq eighthX = true → cols[j] = eighthX ∧ colOf cols eighthX = j := by
      intro j hj hx
      have : cols[j] = eighthX := by
        refine (hf.cok.good _ (List.getElem_mem hj)).eq_of_id (hf.cok.good _ hXc) ?_
        exact (ptrEq_var_iff (hf.cok.var _ (List.getElem_mem hj)) rfl).1 hx
      refine ⟨this, ?_⟩
      rw [← this]
      exact hf.cok.col_get hj
    refine ⟨by rw [hf.v2i]; simp, q, hq, xs, List.replicate q.na 0, [], cols.map fun y => if y.ptrEq eighthX then 9 / 4 else 0, rfl, ?_, ?_, ?_⟩
    · refine ⟨hxs q hq, by simp, ?_, ?_, ?_, ?_⟩
      · intro j _
        refine ⟨by simp, ?_⟩
        rcases hpi j with h | ⟨-, -, h⟩ <;> rw [h] <;> norm_num
      · intro j up _
        simp
      · intro j lo hlo
        rcases hpi j with h | ⟨hj, hx, h⟩ <;> rw [h]
        · norm_num
        · obtain ⟨e1, e2⟩ := heq j hj hx
          rw [hv.l, stdL, List.getElem?_map, List.getElem?_eq_getElem hj, e1, Option.map_some, Option.some.injEq] at hlo
          have hlo' : lo = 3645 / 512 := by
            have hle : (FloatOps.neg (inf : Fl eighth) <=. Fl.num eighth (3645 / 512)) = true := by
              show decide (-(10 ^ 8 : ℝ) ≤ 3645 / 512) = true
              norm_num
            simp only [loT, tightest, hl, List.foldl_cons, List.foldl_nil, ptrEq_refl, hle, Bool.and_self, if_true, Fl.num_inj] at hlo
            exact hlo.symm
          have h8 := hpt _ hX
          rw [hf.v2i, pointOf_eq, pointEnv_col hf.cok hXc, e2, List.getElem?_map] at h8
          obtain ⟨x8, g1, g2⟩ := Option.map_eq_some_iff.1 h8
          rw [Fl.num_inj] at g2
          rw [List.getD, g1, Option.getD_some, g2, hlo']
          show 9 / 4 * ((8 : ℝ) - _) ≤ 2
          norm_num
      · intro j cj hcj
        rw [stdC, List.getElem?_map] at hcj
        obtain ⟨y, hy, hcj⟩ := Option.map_eq_some_iff.1 hcj
        obtain ⟨hj, hy⟩ := List.getElem?_eq_some_iff.1 hy
        have h0 : ∀ l : List (ℕ × ℕ × Fl eighth), (l.map fun e => e.2.2.val * (List.replicate q.na (0 : ℝ)).getD e.1 0).sum = 0 := by
          intro l
          simp only [hlam, mul_zero, List.map_const', List.sum_replicate, smul_zero]
        rw [h0]
        by_cases hx : y.ptrEq eighthX = true
        · rw [← hcj, ← hy, (heq j hj (hy ▸ hx)).1]
          simp only [valAt, hz, getN, ptrEq_refl, if_true, Option.getD_some, Fl.val_num]
          simp [List.getD, hj, hy, hx]
        · have hx' : eighthX.ptrEq y = false := by
            rw [← Bool.not_eq_true]
            intro h'
            apply hx
            rw [ptrEq_symm]
            exact h'
          rw [← hcj]
          simp only [valAt, hz, getN, hx', Bool.false_eq_true, if_false, Option.getD_none]
          simp [List.getD, hj, hy, hx]
    · refine le_of_eq (Finset.sum_eq_zero fun i _ => ?_)
      rw [hlam, abs_zero]
    · refine (Finset.sum_le_card_nsmul _ _ (9 / 4) fun j _ => ?_).trans (by simp)
      rcases hpi j with h | ⟨-, -, h⟩ <;> rw [h] <;> norm_num

/-- So the objective `2 * x + 6` at the reported `x = 8`, `y = 5` is, up to the rounding errors, not worse than at `x = 5`, `y = 4`. -/
example : ∃ N : ℕ, eighthW.m.NoWorse (eighthFF eighthC1) (N * (0 * (13 + 80 + 2 * 80) + 2 * 2) + (80 + 80) * 0 + 80 * (N * (9 / 4)) +
    objErr (1 / 8) (eighthFF eighthC1) (eighthAt 8 5) + objErr (1 / 8) (eighthFF eighthC1) (eighthAt 5 4)) (eighthAt 8 5) (eighthAt 5 4) := by
  obtain ⟨solver, mod', n', N, hs, hval, -, hsol⟩ := eighth_solved
  obtain ⟨v1, v2, v3, v4⟩ := eighth_value 8 5
  obtain ⟨w1, w2, w3, w4⟩ := eighth_value 5 4
  refine ⟨N, C72_optimal (by norm_num) eighthW_reach hs (by norm_num) (by norm_num) eighth_says eighth_objective hsol hval
    (eighth_exact (by norm_num) (by norm_num)) ?_ ?_ ?_ ?_ fun c hc => ⟨eighth_err (by norm_num) (by norm_num) c hc, eighth_err (by norm_num) (by norm_num) c hc⟩⟩
  · intro x hx
    rcases eighth_vars hx with rfl | rfl
    · show |(5 : ℝ)| ≤ _; rw [abs_le]; constructor <;> norm_num
    · show |(4 : ℝ)| ≤ _; rw [abs_le]; constructor <;> norm_num
  · intro c hc _
    simp only [eighthW, List.mem_cons, List.not_mem_nil, or_false] at hc
    rcases hc with rfl | rfl
    · rw [w1, w2, abs_le]; constructor <;> norm_num
    · rw [w3, w4, abs_le]; constructor <;> norm_num
  · intro x hx
    rcases eighth_vars hx with rfl | rfl
    · show |(8 : ℝ) - 5| ≤ _; rw [abs_le]; constructor <;> norm_num
    · show |(5 : ℝ) - 4| ≤ _; rw [abs_le]; constructor <;> norm_num
  · intro c hc _
    simp only [eighthW, List.mem_cons, List.not_mem_nil, or_false] at hc
    rcases hc with rfl | rfl
    · rw [v1, v2, w1, w2, abs_le]; constructor <;> norm_num
    · rw [v3, v4, w3, w4, abs_le]; constructor <;> norm_num

end Verif
