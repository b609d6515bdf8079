import Verif.Proofs.Kkt2
import Verif.Props.ModelStd3
import Verif.Props.Solve
import Verif.Props.CmdSolver

/-! # Property C59: the reported duals certify first-order optimality -/

set_option linter.unusedSectionVars false
set_option linter.unusedSimpArgs false

namespace Verif

section
variable {H : HashOrder} {W : World (Option ℝ)} {n m : Nat}

/-- C59: if the answer of the solver satisfies the first-order conditions of the standard problem with its multipliers, then the
values and duals the model reports after `solve` satisfy the first-order conditions of the model as the user wrote it, strictly inside
the box that the standard problem adds; constraints for which no dual is reported (bounds dominated by others, see C32) count as having
the dual 0. The model has no quotient of a node by itself (C07), no constraint twice, and each constraint has a value somewhere. -/
theorem C59_kkt (hr : ReachableApiW H W n) (hs : W.m.NoSelfDiv) (hnd : W.m.constraints.Nodup) {solver : SolverFn (Option ℝ)}
    {mod' : Model (Option ℝ)} (h : W.m.solve H solver n = .ok ((.ok (), mod'), m))
    (hk : ∀ sp status sol, W.m.SolvedBy H n solver sp status sol → ∃ q ∈ sp.prob.views, q.Kkt sol)
    (hd : ∀ c ∈ W.m.constraints, ∃ σ a b, c.lhs.evaluate σ = some a ∧ c.rhs.evaluate σ = some b)
    (hobj : ∃ v, W.m.minimised (mapEnv mod'.finalPrimals) = some v) (hbox : W.m.InsideBox (mapEnv mod'.finalPrimals)) :
    ∃ y : Constraint (Option ℝ) → ℝ,
      (∀ c ∈ W.m.constraints, getC mod'.finalDuals c = some (some (y c)) ∨ getC mod'.finalDuals c = none ∧ y c = 0) ∧
      W.m.KktAt (mapEnv mod'.finalPrimals) y := by
  obtain ⟨sp, status, sol, ⟨k, hsp1, hsol1⟩, dE, dU, dL, -⟩ := C32_duals_partial hr h
  obtain ⟨sp2, k2, hsp, -, hsv⟩ := solve_ok h
  rcases hsv with ⟨e, -, he⟩ | ⟨status2, sol2, primals, duals, hsol, hx, he⟩ <;> cases he
  rw [hsp] at hsp1
  cases hsp1
  rw [hsol] at hsol1
  cases hsol1
  obtain ⟨q, hq, hkq⟩ := hk sp status sol ⟨k, hsp, hsol⟩
  obtain ⟨hp, k', comp, e, ps, cols, xes, ves, hf⟩ := hr.factsNoSelf hs hsp
  simp only [hx.env hf] at hobj hbox dE dU dL ⊢
  have hobj' : Defined e (pointEnv cols sol.x) := by
    obtain ⟨v, hv⟩ := hobj
    exact ⟨v, by rw [hf.mf.objVal, hv]⟩
  have hd' : ∀ c ∈ W.m.constraints, ∃ σ d, c.residual σ = some d := fun c hc => by
    obtain ⟨σ, a, b, ha, hb⟩ := hd c hc
    exact ⟨σ, a - b, by unfold Constraint.residual; rw [ha, hb]; rfl⟩
  -- the duals are numbers
  have hnum : ∀ w : Option ℝ, (∃ k : Nat, sol.lam[k]? = some w) ∨ (∃ k : Nat, sol.nu[k]? = some w) ∨ (∃ k : Nat, sol.mu[k]? = some w) ∨
      (∃ k : Nat, sol.pi[k]? = some w) → w = some (w.getD 0) := by
    obtain ⟨-, r, xv, lam, nu, mu, pi, lo, up, -, -, hsl, hsn, hsm, hsp', -⟩ := hkq
    intro w hw
    rw [hsl, hsn, hsm, hsp'] at hw
    rcases hw with ⟨k, hw⟩ | ⟨k, hw⟩ | ⟨k, hw⟩ | ⟨k, hw⟩ <;> rw [(vec_get_some hw).2] <;> rfl
  let y : Constraint (Option ℝ) → ℝ := fun c => ((getC duals c).getD (some 0)).getD 0
  have hy : ∀ c w, getC duals c = some w → w = some (w.getD 0) → w = some (y c) := by
    intro c w hc hw
    simp only [y, hc, Option.getD_some]
    exact hw
  have hy0 : ∀ c, getC duals c = none → y c = 0 := fun c hc => by simp [y, hc]
  refine ⟨y, fun c hc => ?_, hf.kkt hd' hnd hq hkq hobj' hbox y ?_ ?_ ?_⟩
  · cases hkd : c.kind with
    | equal =>
      obtain ⟨k, w, h1, h2⟩ := dE c hc hkd
      left
      rw [h1, ← hy c w h1]
      rcases h2 with ⟨-, h2⟩ | ⟨-, h2⟩
      · exact hnum w (.inl ⟨k, h2⟩)
      · exact hnum w (.inr (.inl ⟨k, h2⟩))
    | lessEqual =>
      rcases dU c hc hkd with ⟨i, w, -, h2, h1⟩ | ⟨-, -, h1⟩
      · left
        rw [h1, ← hy c w h1]
        exact hnum w (.inr (.inr (.inl ⟨i, h2⟩)))
      · exact .inr ⟨h1, hy0 c h1⟩
    | greaterEqual =>
      rcases dL c hc hkd with ⟨i, w, -, h2, h1⟩ | ⟨-, -, h1⟩
      · left
        rw [h1, ← hy c w h1]
        exact hnum w (.inr (.inr (.inr ⟨i, h2⟩)))
      · exact .inr ⟨h1, hy0 c h1⟩
  · intro c hc hkd
    obtain ⟨k, w, h1, h2⟩ := dE c hc hkd
    refine ⟨k, ?_⟩
    rcases h2 with ⟨h2, h3⟩ | ⟨h2, h3⟩
    · exact .inl ⟨h2, by rw [h3, ← hy c w h1 (hnum w (.inl ⟨k, h3⟩))]⟩
    · exact .inr ⟨h2, by rw [h3, ← hy c w h1 (hnum w (.inr (.inl ⟨k, h3⟩)))]⟩
  · intro c hc hkd
    rcases dU c hc hkd with ⟨i, w, h0, h2, h1⟩ | ⟨h2, h3, h1⟩
    · exact .inl ⟨i, h0, by rw [h2, ← hy c w h1 (hnum w (.inr (.inr (.inl ⟨i, h2⟩))))]⟩
    · exact .inr ⟨h2, h3, hy0 c h1⟩
  · intro c hc hkd
    rcases dL c hc hkd with ⟨i, w, h0, h2, h1⟩ | ⟨h2, h3, h1⟩
    · exact .inl ⟨i, h0, by rw [h2, ← hy c w h1 (hnum w (.inr (.inr (.inr ⟨i, h2⟩))))]⟩
    · exact .inr ⟨h2, h3, hy0 c h1⟩

end

/-- The example of C59: `minimise x subject to x >= 0 and x == 0`. -/
noncomputable def kx : Node (Option ℝ) := .var 0 "x" .continuous
noncomputable def ka : Constraint (Option ℝ) := ⟨2, kx, .greaterEqual, .const 1 (some 0), ""⟩
noncomputable def kb : Constraint (Option ℝ) := ⟨4, kx, .equal, .const 3 (some 0), ""⟩
noncomputable def kW : World (Option ℝ) := ⟨[kx], [ka, kb], ⟨.minimize kx, [ka, kb], [], none, [], []⟩, none⟩
theorem kW_reach : ReachableApiW HashOrder.listOrder kW 5 :=
    ⟨[.expr (.var "x" .continuous), .cmpNodeScalar .greaterEqual 0 (some 0) "", .cmpNodeScalar .equal 0 (some 0) "", .addConstraint 0, .addConstraint 1, .minimize 0],
      by simp [Cmd.isRaw, Op.isRaw], rfl⟩

theorem kComp (n : Nat) : ∃ (c : NodeComp (Option ℝ)) (k : Nat), c.prop = ⟨true, [(kx, some 1)], some 0⟩ ∧ c.phi = kx ∧ c.gphi = [(kx, .const (n+1) (some 1))] ∧ c.hphi = [] ∧
   kx.stdComponents HashOrder.listOrder n = .ok (c, k) := by
  refine ⟨⟨kx, [(kx, .const (n+1) (some 1))], [], ⟨true, [(kx, some 1)], some 0⟩⟩, n + 2, rfl, rfl, rfl, rfl, ?_⟩
  rfl

theorem kStd : ∃ comp k, kW.m.stdComponents HashOrder.listOrder 5 = .ok (comp, k) ∧ comp.obj.prop = ⟨true, [(kx, some 1)], some 0⟩ ∧
    comp.constr.a = [(0, kx, some 1)] ∧ comp.constr.b = [some 0] ∧ comp.constr.f = [] ∧ comp.constr.l = [(kx, some 0, ka)] ∧ comp.constr.u = [] ∧
    comp.constr.ca = [kb] ∧ comp.constr.cj = [] ∧ comp.varset = [kx] := by
  have hs : ∀ n j, subN kx (.const j (some 0)) n = .ok (kx, n + 1) := fun n j => sub_zero_node kx (by simp [kx]) j n
  unfold Model.stdComponents Model.objComponents
  simp only [kW]
  obtain ⟨c1, k1, p1, -, -, -, h1⟩ := kComp 5
  rw [M.bind_ok_eq h1]
  obtain ⟨c2, k2, p2, -, -, -, h2⟩ := kComp (k1 + 1)
  obtain ⟨c3, k3, p3, -, -, -, h3⟩ := kComp (k2 + 1)
  have hb : ka.boundVar c2.prop = some kx := by
    simp [p2, Constraint.boundVar, ka, FloatOps.eq, one]
  have hb' : kb.boundVar c3.prop = none := by
    simp [p3, Constraint.boundVar, kb, FloatOps.eq, one]
  have e1 : ka.stdComponents HashOrder.listOrder 0 0 k1 = .ok (({ ConstrComp.empty with l := [(kx, some 0, ka)], prop := [c2.prop] }, 0, 0), k2) := by
    unfold Constraint.stdComponents
    rw [show ka.lhs = kx from rfl, show ka.rhs = .const 1 (some 0) from rfl, M.bind_ok_eq (hs _ _), M.bind_ok_eq h2]
    simp only [hb]
    simp only [p2, ka]
    simp [M.pure, FloatOps.neg]
  have e2 : kb.stdComponents HashOrder.listOrder 0 0 k2 = .ok (({ ConstrComp.empty with a := [(0, kx, some 1)], b := [some 0], ca := [kb], prop := [c3.prop] }, 1, 0), k3 + 1) := by
    unfold Constraint.stdComponents
    rw [show kb.lhs = kx from rfl, show kb.rhs = .const 3 (some 0) from rfl, M.bind_ok_eq (hs _ _), M.bind_ok_eq h3]
    simp only [hb']
    simp only [p3, kb, if_true]
    rw [M.bind_ok_eq (iter_single _ _ _)]
    simp [M.pure, FloatOps.neg]
  have e3 : ∃ r, constrLoop HashOrder.listOrder (ConstrComp.empty, 0, 0) [ka, kb] k1 = .ok (r, k3 + 1) ∧ r.1.a = [(0, kx, some 1)] ∧
      r.1.b = [some 0] ∧ r.1.f = [] ∧ r.1.l = [(kx, some 0, ka)] ∧ r.1.u = [] ∧ r.1.ca = [kb] ∧ r.1.cj = [] ∧ r.1.prop = [c2.prop, c3.prop] := by
    simp only [constrLoop]
    rw [M.bind_ok_eq e1]
    dsimp only
    rw [M.bind_ok_eq e2]
    refine ⟨_, rfl, ?_⟩
    simp [ConstrComp.append, ConstrComp.empty]
  obtain ⟨r, e3, q1, q2, q3, q4, q5, q6, q7, q8⟩ := e3
  rw [M.bind_ok_eq e3]
  refine ⟨_, _, rfl, p1, q1, q2, q3, q4, q5, q6, q7, ?_⟩
  simp [ModelComp.varset, p1, p2, p3, q8, setInsert, setOf, ptrEq_refl]
/-- The standard problem of the example. -/
theorem kDataFull : ∃ sp m q x0, kW.m.stdProblem HashOrder.listOrder 5 = .ok (sp, m) ∧ sp.var2index = [(kx, 0)] ∧ sp.prob = .lp q ∧
    (0, ka) ∈ sp.lindex2constr ∧ Milp.new [some 1] ⟨(1, 1), [0], [0], [some 1]⟩ [some 0] [some 0] [some (10 ^ 8)] [false] (some x0) = .ok q.baseMilp ∧
    x0.length = 1 ∧
    q.baseNlp.base = Minlp.initial (Coo.fromNnz (1, 1) 0) ⟨(1, 1), [0], [0], [some 1]⟩ [some 0] (Coo.fromNnz (0, 1) 0) [] [some 0] [some (10 ^ 8)]
      [false] (some x0) (linearEval [some 1]) := by
  obtain ⟨h0, hw⟩ := kW_reach.inv
  obtain ⟨comp, k, hcomp, c1, c2, c3, c4, c5, c6, c7, c8, c9⟩ := kStd
  obtain ⟨hp1, -, -, -, e', ps, hmf⟩ := spec_modelComp (H := HashOrder.listOrder) hw.heap hw.model comp k hcomp
  obtain ⟨sp, xes, ves, cols, m', h1, -, hf⟩ := stdProblem_after hmf hw.initNd hcomp
  have hcols : cols = [kx] := by
    obtain ⟨hnd, hm⟩ := hmf.varset
    have hcol : ∀ y, y ∈ cols ↔ y = kx := fun y => by rw [hf.mem, ← hm, c9]; simp
    have hnd := hf.cok.nodup'
    cases hcs : cols with
    | nil => have := (hcol kx).2 rfl; rw [hcs] at this; simp at this
    | cons y ys =>
      rw [hcs] at hcol hnd
      have hy : y = kx := (hcol y).1 (by simp)
      cases ys with
      | nil => rw [hy]
      | cons z zs =>
        have hz : z = kx := (hcol z).1 (by simp)
        rw [hy, hz] at hnd
        simp at hnd
  have hc : stdC cols comp = [some 1] := by simp [stdC, hcols, c1, valAt, getN, ptrEq_refl]
  have ha : (stdA cols comp) = ⟨(1, 1), [0], [0], [some 1]⟩ := by
    simp [stdA, hcols, c2, c3, linP, colOf, ptrEq_refl]
  have hl : stdL cols comp = [some 0] := by
    simp [stdL, hcols, loT, tightest, c5, ptrEq_refl, FloatOps.le, inf, FloatOps.neg]
  have hu : stdU cols comp = [some (10 ^ 8)] := by
    simp [stdU, hcols, upT, tightest, c6, inf]
  have hP : stdP cols = [false] := by simp [stdP, hcols, kx, Node.isInteger]
  have hpr := hf.prob
  unfold stdProbOf at hpr
  rw [if_pos (by rw [c1, c4]; simp), if_pos (by rw [hcols]; simp [kx, Node.isInteger])] at hpr
  refine ⟨sp, m', _, stdX0 cols xes, h1, by rw [hf.v2i, hcols]; rfl, hpr, ?_, ?_, by simp [stdX0, hcols], ?_⟩
  · rw [← getNat_mem hf.lidx.nodup, hf.lidx.get]
    simp [hcols, loT, tightest, c5, ptrEq_refl, FloatOps.le, inf, FloatOps.neg]
  · rw [hc]
    unfold stdLinear
    rw [hc, ha, c3, hl, hu, hP, show cols.length = 1 by rw [hcols]; rfl]
    rfl
  · show stdLinear cols comp xes = _
    unfold stdLinear
    rw [hc, ha, c3, hl, hu, hP, show cols.length = 1 by rw [hcols]; rfl]

theorem kData : ∃ sp m q x0, kW.m.stdProblem HashOrder.listOrder 5 = .ok (sp, m) ∧ sp.var2index = [(kx, 0)] ∧ sp.prob = .lp q ∧
    (0, ka) ∈ sp.lindex2constr ∧ Milp.new [some 1] ⟨(1, 1), [0], [0], [some 1]⟩ [some 0] [some 0] [some (10 ^ 8)] [false] x0 = .ok q.baseMilp := by
  obtain ⟨sp, m, q, x0, h1, h2, h3, h4, h5, -⟩ := kDataFull
  exact ⟨sp, m, q, _, h1, h2, h3, h4, h5⟩

/-- The answer of the solver in the example of C59. -/
noncomputable def kSol : Sol (Option ℝ) := ⟨[some 0], [some (1/3)], [], [some 0], [some (2/3)]⟩

theorem kProb : ∃ sp m, kW.m.stdProblem HashOrder.listOrder 5 = .ok (sp, m) ∧ sp.var2index = [(kx, 0)] ∧ (∃ q, sp.prob = .lp q) ∧ ∃ q, sp.prob.views = [q, q] ∧ q.Kkt kSol ∧ kSol.Fits q := by
  obtain ⟨h0, hw⟩ := kW_reach.inv
  obtain ⟨comp, k, hcomp, c1, c2, c3, c4, c5, c6, c7, c8, c9⟩ := kStd
  obtain ⟨hp1, -, -, -, e', ps, hmf⟩ := spec_modelComp (H := HashOrder.listOrder) hw.heap hw.model comp k hcomp
  obtain ⟨sp, xes, ves, cols, m', h1, -, hf⟩ := stdProblem_after hmf hw.initNd hcomp
  have hcols : cols = [kx] := by
    obtain ⟨hnd, hm⟩ := hmf.varset
    have hcol : ∀ y, y ∈ cols ↔ y = kx := fun y => by rw [hf.mem, ← hm, c9]; simp
    have hnd := hf.cok.nodup'
    cases hcs : cols with
    | nil => have := (hcol kx).2 rfl; rw [hcs] at this; simp at this
    | cons y ys =>
      rw [hcs] at hcol hnd
      have hy : y = kx := (hcol y).1 (by simp)
      cases ys with
      | nil => rw [hy]
      | cons z zs =>
        have hz : z = kx := (hcol z).1 (by simp)
        rw [hy, hz] at hnd
        simp at hnd
  have hv : sp.prob.views = [stdLinear cols comp xes, stdLinear cols comp xes] := by
    rw [hf.prob]
    unfold stdProbOf
    rw [if_pos (by rw [c1, c4]; simp), if_pos (by rw [hcols]; simp [kx, Node.isInteger])]
    rfl
  have hc : stdC cols comp = [some 1] := by simp [stdC, hcols, c1, valAt, getN, ptrEq_refl]
  have ha : (stdA cols comp) = ⟨(1, 1), [0], [0], [some 1]⟩ := by
    simp [stdA, hcols, c2, c3, linP, colOf, ptrEq_refl]
  have hl : stdL cols comp = [some 0] := by
    simp [stdL, hcols, loT, tightest, c5, ptrEq_refl, FloatOps.le, inf, FloatOps.neg]
  have hu : stdU cols comp = [some (10 ^ 8)] := by
    simp [stdU, hcols, upT, tightest, c6, inf]
  have hP : stdP cols = [false] := by simp [stdP, hcols, kx, Node.isInteger]
  have hi : LinInv (stdC cols comp) (stdA cols comp) comp.constr.b (stdL cols comp) (stdU cols comp) (stdP cols)
        (some (stdX0 cols xes)) (stdLinear cols comp xes) := LinInv.initial (by simp [stdC, stdA, Coo.cols])
  have hev := hi.evaluate (x := kSol.x) (by simp [hc, kSol])
  have hx : (stdLinear cols comp xes).nx = 1 := by simp [stdLinear, Minlp.initial, Minlp.nx, ha, Coo.cols]
  have hna : (stdLinear cols comp xes).na = 1 := by simp [stdLinear, Minlp.initial, Minlp.na, c3]
  have hnf : (stdLinear cols comp xes).nf = 0 := by simp [stdLinear, Minlp.initial, Minlp.nf, Coo.fromNnz, Coo.rows]
  refine ⟨sp, m', h1, by rw [hf.v2i, hcols]; rfl, ?_, _, hv, ⟨⟨?_, ?_, ⟨_, hev, ?_⟩, ?_, ?_⟩, ⟨_, fun _ => 0, fun _ => 1/3, fun _ => 0, fun _ => 0, fun _ => 2/3, fun _ => 0, fun _ => 10 ^ 8, hev, ?_⟩⟩, ?_⟩
  · rw [hf.prob]
    unfold stdProbOf
    rw [if_pos (by rw [c1, c4]; simp), if_pos (by rw [hcols]; simp [kx, Node.isInteger])]
    exact ⟨_, rfl⟩
  · rw [hx]; rfl
  · intro i v h
    change comp.constr.b[i]? = some v at h
    change ∃ t, v = some t ∧ total ((rowOf (stdA cols comp).triplets i).map _) = some t
    rw [c3] at h
    rw [ha]
    cases i with
    | zero =>
      simp only [List.getElem?_cons_zero, Option.some.injEq] at h
      exact ⟨0, h.symm, by simp [Coo.triplets, rowOf, total, kSol, Exact.mul_some]⟩
    | succ i => simp at h
  · intro v hv'
    simp [stdLinear, Minlp.initial, Coo.fromNnz, Coo.rows] at hv'
  · intro i x hxi
    cases i with
    | zero =>
      simp only [kSol, List.getElem?_cons_zero, Option.some.injEq] at hxi
      exact ⟨0, 0, 10 ^ 8, hxi.symm, by change (stdL cols comp)[0]? = _; rw [hl]; rfl, by change (stdU cols comp)[0]? = _; rw [hu]; rfl, le_refl _, by norm_num⟩
    | succ i => simp [kSol] at hxi
  · intro i hi'
    change (stdP cols)[i]? = _ at hi'
    rw [hP] at hi'
    cases i <;> simp at hi'
  · rw [hx, hna, hnf]
    refine ⟨rfl, rfl, rfl, rfl, rfl, hl, hu, fun i hi' => ?_⟩
    obtain rfl : i = 0 := by omega
    refine ⟨le_refl _, by norm_num, by simp, by simp, 1, fun _ => 1, fun _ => 0, ?_, ?_, by simp, ?_⟩
    · simp [hc]
    · intro k hk
      obtain rfl : k = 0 := by omega
      change (stdA cols comp).dense 0 0 = _
      rw [ha]
      simp [Coo.dense, valuesAt, rowOf, Coo.triplets, total]
    · norm_num [show List.range 1 = [0] from rfl]
  · exact ⟨by rw [hx]; rfl, by rw [hna]; rfl, by rw [hnf]; rfl, by rw [hx]; rfl, by rw [hx]; rfl⟩

theorem kNoSelf : kW.m.NoSelfDiv := by
  have hns : NoSelfDiv kx := by
    intro i a b h
    simp only [kx] at h
    rw [occurs_iff] at h
    simp [Node.arguments] at h
  constructor
  · rintro f (hf | hf)
    · simp only [kW, Objective.minimize.injEq] at hf
      exact hf ▸ hns
    · simp [kW] at hf
  · intro c hc
    simp only [kW, List.mem_cons, List.not_mem_nil, or_false] at hc
    rcases hc with rfl | rfl <;> refine ⟨hns, fun i a b ho => ?_⟩ <;> simp only [ka, kb] at ho <;> rw [occurs_iff] at ho <;>
      simp [Node.arguments] at ho

theorem kVars {x : Node (Option ℝ)} (hx : kW.m.HasVar x) : x = kx := by
  have leaf : ∀ y, Occurs x y → y.arguments = [] → x = y := fun y h hy => by
    rw [occurs_iff, hy] at h
    simpa using h
  obtain ⟨hv, ⟨f, hf | hf, ho⟩ | ⟨c, hc, ho⟩⟩ := hx
  · simp only [kW, Objective.minimize.injEq] at hf
    subst hf
    exact leaf _ ho rfl
  · simp [kW] at hf
  · simp only [kW, List.mem_cons, List.not_mem_nil, or_false] at hc
    rcases hc with rfl | rfl <;> rcases ho with ho | ho
    · exact leaf _ ho rfl
    · rw [leaf _ ho rfl] at hv; simp [ka, Node.isVar] at hv
    · exact leaf _ ho rfl
    · rw [leaf _ ho rfl] at hv; simp [kb, Node.isVar] at hv

/-- After a solver answered `x = 0`, the final primals say so. -/
theorem kVal {solver : SolverFn (Option ℝ)} {mod' : Model (Option ℝ)} {m m0 : Nat} {sp : StdProb (Option ℝ)} {sol : Sol (Option ℝ)}
    {status : Status} {t : ℝ} (hsolve : kW.m.solve HashOrder.listOrder solver 5 = .ok ((.ok (), mod'), m))
    (hsp : kW.m.stdProblem HashOrder.listOrder 5 = .ok (sp, m0)) (hvi : sp.var2index = [(kx, 0)])
    (hsv : solver sp.prob = .ok (.ok (status, sol))) (hx : sol.x = [some t]) : mapEnv mod'.finalPrimals 0 = some (some t) := by
  obtain ⟨sp', st, sol', ⟨m1, hsp', hso⟩, -, hlen, -, hget, -⟩ := C31_primals kW_reach.reachable hsolve
  rw [hsp] at hsp'
  cases hsp'
  rw [hsv] at hso
  cases hso
  rw [hvi] at hlen
  obtain ⟨v, hv, hg⟩ := hget kx 0 (by rw [hvi]; simp)
  cases hfp : mod'.finalPrimals with
  | nil => simp [hfp] at hlen
  | cons p ps =>
    cases ps with
    | cons _ _ => simp [hfp] at hlen
    | nil =>
      rw [hfp] at hg
      simp only [hx, List.getElem?_cons_zero, Option.some.injEq] at hv
      simp only [getN] at hg
      split at hg
      · rename_i hp
        have hid : p.1.id = 0 := by
          simp [Node.ptrEq, kx] at hp
          simp_all [Node.id]
        simp [mapEnv, hid]
        rw [hv]
        simpa using hg
      · simp at hg

theorem kBox {σ : Env (Option ℝ)} (hval : σ 0 = some (some 0)) : kW.m.InsideBox σ := by
  refine ⟨fun x hx t ht => ?_, fun c hc hk hb a b ha hb' => ?_⟩
  · obtain rfl := kVars hx
    simp [kx, Node.evaluate, hval] at ht
    rw [← ht]; norm_num
  · simp only [kW, List.mem_cons, List.not_mem_nil, or_false] at hc
    rcases hc with rfl | rfl
    · simp [ka, kx, Node.evaluate, hval] at ha hb'
      rw [← ha, ← hb']; norm_num
    · simp [kb] at hk

/-- Non-vacuity of C59: `minimise x subject to x >= 0 and x == 0`, with a solver that answers `x = 0`, dual 1/3 of the equation and 2/3
of the lower bound, meets the hypotheses; the duals that are reported then are 2/3 and 1/3. -/
theorem kMeets : ∃ (solver : SolverFn (Option ℝ)) (mod' : Model (Option ℝ)) (m : Nat), ReachableApiW HashOrder.listOrder kW 5 ∧ kW.m.NoSelfDiv ∧
    kW.m.constraints.Nodup ∧ kW.m.solve HashOrder.listOrder solver 5 = .ok ((.ok (), mod'), m) ∧
    (∀ sp status sol, kW.m.SolvedBy HashOrder.listOrder 5 solver sp status sol → ∃ q ∈ sp.prob.views, q.Kkt sol) ∧
    (∀ c ∈ kW.m.constraints, ∃ σ a b, c.lhs.evaluate σ = some a ∧ c.rhs.evaluate σ = some b) ∧
    (∃ v, kW.m.minimised (mapEnv mod'.finalPrimals) = some v) ∧ kW.m.InsideBox (mapEnv mod'.finalPrimals) := by
  obtain ⟨sp, m0, hsp, hvi, -, q, hq, hk, hfit⟩ := kProb
  let solver : SolverFn (Option ℝ) := fun _ => .ok (.ok (.solved, kSol))
  obtain ⟨res, mod', m, hsolve, -, hok⟩ := C55_fits (solver := solver) kW_reach.reachable hsp rfl (by
    intro st sol he
    rw [Except.ok.injEq, Prod.mk.injEq] at he
    exact ⟨q, by rw [hq]; simp, by rw [← he.2]; exact hfit⟩)
  obtain rfl := (hok _ _ rfl).1
  have hval := kVal hsolve hsp hvi (rfl : solver sp.prob = .ok (.ok (.solved, kSol))) rfl
  refine ⟨solver, mod', m, kW_reach, kNoSelf, by simp [kW, ka, kb], hsolve, ?_, ?_, ?_, kBox hval⟩
  · rintro sp' st sol ⟨m1, hsp', hso⟩
    rw [hsp] at hsp'
    cases hsp'
    cases hso
    exact ⟨q, by rw [hq]; simp, hk⟩
  · intro c hc
    refine ⟨fun _ => some (some 0), 0, 0, ?_⟩
    simp only [kW, List.mem_cons, List.not_mem_nil, or_false] at hc
    rcases hc with rfl | rfl <;> simp [ka, kb, kx, Node.evaluate]
  · exact ⟨0, by simp [Model.minimised, kW, kx, Node.evaluate, hval]⟩

end Verif
