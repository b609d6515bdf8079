import Verif.Proofs.Convex
import Verif.Props.Kkt

/-! # Property C60: for convex models the reported values are an optimum of the model -/

set_option linter.unusedSectionVars false
set_option linter.unusedSimpArgs false

namespace Verif

open Exact

section
variable {H : HashOrder} {W : World (Option ℝ)} {n m : Nat}

/-- The variables of the model of a program, listed. -/
theorem model_vars (hr : ReachableW H W n) {sp : StdProb (Option ℝ)} (h : W.m.stdProblem H n = .ok (sp, m)) :
    ∃ vars : List (Node (Option ℝ)), (∀ x ∈ vars, W.m.HasVar x) ∧ (vars.map Node.id).Nodup ∧
      ∀ x, W.m.HasVar x → ∃ z ∈ vars, z.id = x.id := by
  obtain ⟨hp, k, comp, e, ps, cols, xes, ves, hf, -⟩ := hr.facts h
  have hneg : (negOne ==. (zero : Option ℝ)) = false := by
    simp [negOne, FloatOps.eq, zero, FloatOps.neg, one]
  refine ⟨cols.filter fun x => decide (x.id < n), fun x hx => ?_, ?_, fun x hx => ⟨x, ?_, rfl⟩⟩
  · simp only [List.mem_filter, decide_eq_true_eq] at hx
    exact hf.hasVar hx.1 hx.2
  · have h1 : ((cols.filter fun x => decide (x.id < n))).Pairwise fun x y => x.ptrEq y = false :=
      List.Pairwise.sublist List.filter_sublist hf.cok.nodup
    rw [List.Nodup, List.pairwise_map]
    refine h1.imp_of_mem fun {x y} hx hy hxy hid => ?_
    have := (isVar_ptrEq_iff (hf.cok.var x (List.mem_filter.1 hx).1) (hf.cok.var y (List.mem_filter.1 hy).1)).2 hid
    rw [this] at hxy; cases hxy
  · simp only [List.mem_filter, decide_eq_true_eq]
    exact ⟨(hf.mem x).2 (hf.mf.col_of_hasVar hneg hx), (hf.mf.old x hx).1⟩

/-- C60, convex models: under the conditions of C59, the reported values satisfy the model, and no assignment that satisfies it, in or
outside the box of the standard problem, has a better objective if the model is convex between the reported values and it. -/
theorem C60_convex (hr : ReachableApiW H W n) (hs : W.m.NoSelfDiv) (hnd : W.m.constraints.Nodup) {solver : SolverFn (Option ℝ)}
    {mod' : Model (Option ℝ)} (h : W.m.solve H solver n = .ok ((.ok (), mod'), m))
    (hk : ∀ sp status sol, W.m.SolvedBy H n solver sp status sol → ∃ q ∈ sp.prob.views, q.Kkt sol)
    (hd : ∀ c ∈ W.m.constraints, ∃ σ a b, c.lhs.evaluate σ = some a ∧ c.rhs.evaluate σ = some b)
    (hobj : ∃ v, W.m.minimised (mapEnv mod'.finalPrimals) = some v) (hbox : W.m.InsideBox (mapEnv mod'.finalPrimals)) :
    W.m.Satisfies (mapEnv mod'.finalPrimals) ∧
    ∀ τ, W.m.Satisfies τ → W.m.ConvexBetween (mapEnv mod'.finalPrimals) τ →
      ∃ a b, W.m.minimised (mapEnv mod'.finalPrimals) = some a ∧ W.m.minimised τ = some b ∧ a ≤ b := by
  obtain ⟨y, -, hy⟩ := C59_kkt hr hs hnd h hk hd hobj hbox
  obtain ⟨sp, k, hsp, -, hsv⟩ := solve_ok h
  rcases hsv with ⟨e, -, he⟩ | ⟨status, sol, primals, duals, hsol, hx, he⟩ <;> cases he
  obtain ⟨vars, h1, h2, h3⟩ := model_vars hr.reachable hsp
  have hσ : ∀ x, W.m.HasVar x → ∃ t : ℝ, x.evaluate (mapEnv primals) = some t := by
    obtain ⟨q, hq, hkq⟩ := hk sp status sol ⟨k, hsp, hsol⟩
    obtain ⟨hp, k', comp, e, ps, cols, xes, ves, hf⟩ := hr.factsNoSelf hs hsp
    intro x hxv
    have hneg : (negOne ==. (zero : Option ℝ)) = false := by
      simp [negOne, FloatOps.eq, zero, FloatOps.neg, one]
    have hxm := (hf.mem x).2 (hf.mf.col_of_hasVar hneg hxv)
    obtain ⟨i, hil, rfl⟩ := List.getElem_of_mem hxm
    obtain ⟨-, r, xv, lam, nu, mu, pi, lo, up, -, hsx, -⟩ := hkq
    have hlt : i < q.nx := by
      simp only [Minlp.nx, (hf.view hq).a, stdA, Coo.cols]
      exact hil
    refine ⟨xv i, ?_⟩
    rw [hx.env hf, evaluate_col hf.cok hxm, hf.cok.col_get hil, hsx, vec_get hlt]; rfl
  refine ⟨⟨hσ, hy.holds⟩, fun τ hτ hc => ?_⟩
  obtain ⟨a, ha⟩ := hobj
  obtain ⟨b, hb, hab⟩ := hy.optimal h1 h2 h3 hσ ha hτ hc
  exact ⟨a, b, ha, hb, hab⟩

/-- C60, linear models: if the standard problem is an `Lp` or a `Milp`, then under the conditions of C59 the reported values satisfy
the model, and no assignment of numbers to the variables that satisfies the constraints has a better objective, be it inside or
outside the box of the standard problem (and, for a `Milp`, be it integral or not). -/
theorem C60_linear (hr : ReachableApiW H W n) (hs : W.m.NoSelfDiv) (hnd : W.m.constraints.Nodup) {solver : SolverFn (Option ℝ)}
    {mod' : Model (Option ℝ)} (h : W.m.solve H solver n = .ok ((.ok (), mod'), m))
    (hlin : ∀ sp k, W.m.stdProblem H n = .ok (sp, k) → (∃ q, sp.prob = .lp q) ∨ ∃ q, sp.prob = .milp q)
    (hk : ∀ sp status sol, W.m.SolvedBy H n solver sp status sol → ∃ q ∈ sp.prob.views, q.Kkt sol)
    (hd : ∀ c ∈ W.m.constraints, ∃ σ a b, c.lhs.evaluate σ = some a ∧ c.rhs.evaluate σ = some b)
    (hobj : ∃ v, W.m.minimised (mapEnv mod'.finalPrimals) = some v) (hbox : W.m.InsideBox (mapEnv mod'.finalPrimals)) :
    W.m.Satisfies (mapEnv mod'.finalPrimals) ∧
    ∀ τ, W.m.Satisfies τ →
      ∃ a b, W.m.minimised (mapEnv mod'.finalPrimals) = some a ∧ W.m.minimised τ = some b ∧ a ≤ b := by
  obtain ⟨hsat, hopt⟩ := C60_convex hr hs hnd h hk hd hobj hbox
  refine ⟨hsat, fun τ hτ => hopt τ hτ ?_⟩
  obtain ⟨sp, k, hsp, -, -⟩ := solve_ok h
  obtain ⟨hp, k', comp, e, ps, cols, xes, ves, hf⟩ := hr.factsNoSelf hs hsp
  have hnum : ∀ x, W.m.HasVar x → ∃ a b, mapEnv mod'.finalPrimals x.id = some (some a) ∧ τ x.id = some (some b) := fun x hx => by
    obtain ⟨s, hs'⟩ := hsat.numbers x hx
    obtain ⟨t, ht⟩ := hτ.numbers x hx
    exact ⟨s, t, evaluate_var_num hx.1 hs', evaluate_var_num hx.1 ht⟩
  refine hf.linear_convex (by simp) (hlin sp k hsp) hnum (fun c hc => ?_) hobj
  obtain ⟨a, b, ha, hb, -⟩ := hsat.holds c hc
  exact ⟨a - b, by unfold Constraint.residual; rw [ha, hb]; rfl⟩

end

/-- The example of C60: `minimise x subject to x >= 0`, with a solver that answers `x = 0` and dual 1 of the lower bound. -/
noncomputable def jW : World (Option ℝ) := ⟨[kx], [ka], ⟨.minimize kx, [ka], [], none, [], []⟩, none⟩
theorem jW_reach : ReachableApiW HashOrder.listOrder jW 3 :=
    ⟨[.expr (.var "x" .continuous), .cmpNodeScalar .greaterEqual 0 (some 0) "", .addConstraint 0, .minimize 0],
      by simp [Cmd.isRaw, Op.isRaw], rfl⟩

theorem jStd : ∃ comp k, jW.m.stdComponents HashOrder.listOrder 3 = .ok (comp, k) ∧ comp.obj.prop = ⟨true, [(kx, some 1)], some 0⟩ ∧
    comp.constr.a = [] ∧ comp.constr.b = [] ∧ comp.constr.f = [] ∧ comp.constr.l = [(kx, some 0, ka)] ∧ comp.constr.u = [] ∧
    comp.constr.ca = [] ∧ comp.constr.cj = [] ∧ comp.varset = [kx] := by
  have hs : ∀ n j, subN kx (.const j (some 0)) n = .ok (kx, n + 1) := fun n j => sub_zero_node kx (by simp [kx]) j n
  unfold Model.stdComponents Model.objComponents
  simp only [jW]
  obtain ⟨c1, k1, p1, -, -, -, h1⟩ := kComp 3
  rw [M.bind_ok_eq h1]
  obtain ⟨c2, k2, p2, -, -, -, h2⟩ := kComp (k1 + 1)
  have hb : ka.boundVar c2.prop = some kx := by
    simp [p2, Constraint.boundVar, ka, FloatOps.eq, one]
  have e1 : ka.stdComponents HashOrder.listOrder 0 0 k1 = .ok (({ ConstrComp.empty with l := [(kx, some 0, ka)], prop := [c2.prop] }, 0, 0), k2) := by
    unfold Constraint.stdComponents
    rw [show ka.lhs = kx from rfl, show ka.rhs = .const 1 (some 0) from rfl, M.bind_ok_eq (hs _ _), M.bind_ok_eq h2]
    simp only [hb]
    simp only [p2, ka]
    simp [M.pure, FloatOps.neg]
  have e3 : ∃ r, constrLoop HashOrder.listOrder (ConstrComp.empty, 0, 0) [ka] k1 = .ok (r, k2) ∧ r.1.a = [] ∧
      r.1.b = [] ∧ r.1.f = [] ∧ r.1.l = [(kx, some 0, ka)] ∧ r.1.u = [] ∧ r.1.ca = [] ∧ r.1.cj = [] ∧ r.1.prop = [c2.prop] := by
    simp only [constrLoop]
    rw [M.bind_ok_eq e1]
    refine ⟨_, rfl, ?_⟩
    simp [ConstrComp.append, ConstrComp.empty]
  obtain ⟨r, e3, q1, q2, q3, q4, q5, q6, q7, q8⟩ := e3
  rw [M.bind_ok_eq e3]
  refine ⟨_, _, rfl, p1, q1, q2, q3, q4, q5, q6, q7, ?_⟩
  simp [ModelComp.varset, p1, p2, q8, setInsert, setOf, ptrEq_refl]
noncomputable def jSol : Sol (Option ℝ) := ⟨[some 0], [], [], [some 0], [some 1]⟩

/-- The standard problem of the example. -/
theorem jData : ∃ sp m, jW.m.stdProblem HashOrder.listOrder 3 = .ok (sp, m) ∧ sp.var2index = [(kx, 0)] ∧ (∃ q, sp.prob = .lp q) ∧
    ∃ q, sp.prob.views = [q, q] ∧ q.nx = 1 ∧ q.na = 0 ∧ q.nf = 0 ∧ q.b = [] ∧ q.l = [some 0] ∧ q.u = [some (10 ^ 8)] ∧ q.p = [false] ∧
      ∀ v, ∃ r, q.evaluate [v] = .ok r ∧ r.buf.f = [] ∧ r.buf.gphi = [some 1] := by
  obtain ⟨h0, hw⟩ := jW_reach.inv
  obtain ⟨comp, k, hcomp, c1, c2, c3, c4, c5, c6, c7, c8, c9⟩ := jStd
  obtain ⟨hp1, -, -, -, e', ps, hmf⟩ := spec_modelComp (H := HashOrder.listOrder) hw.heap hw.model comp k hcomp
  obtain ⟨sp, xes, ves, cols, m', h1, -, hf⟩ := stdProblem_after hmf hw.initNd hcomp
  have hcols : cols = [kx] := by
    obtain ⟨hnd, hm⟩ := hmf.varset
    have hcol : ∀ y, y ∈ cols ↔ y = kx := fun y => by rw [hf.mem, ← hm, c9]; simp
    have hnd := hf.cok.nodup'
    cases hcs : cols with
    | nil => have := (hcol kx).2 rfl; rw [hcs] at this; simp at this
    | cons y ys =>
      rw [hcs] at hcol hnd
      have hy : y = kx := (hcol y).1 (by simp)
      cases ys with
      | nil => rw [hy]
      | cons z zs =>
        have hz : z = kx := (hcol z).1 (by simp)
        rw [hy, hz] at hnd
        simp at hnd
  have hv : sp.prob.views = [stdLinear cols comp xes, stdLinear cols comp xes] := by
    rw [hf.prob]
    unfold stdProbOf
    rw [if_pos (by rw [c1, c4]; simp), if_pos (by rw [hcols]; simp [kx, Node.isInteger])]
    rfl
  have hc : stdC cols comp = [some 1] := by simp [stdC, hcols, c1, valAt, getN, ptrEq_refl]
  have ha : (stdA cols comp) = ⟨(0, 1), [], [], []⟩ := by
    simp [stdA, hcols, c2, c3, linP, colOf, ptrEq_refl]
  have hl : stdL cols comp = [some 0] := by
    simp [stdL, hcols, loT, tightest, c5, ptrEq_refl, FloatOps.le, inf, FloatOps.neg]
  have hu : stdU cols comp = [some (10 ^ 8)] := by
    simp [stdU, hcols, upT, tightest, c6, inf]
  have hP : stdP cols = [false] := by simp [stdP, hcols, kx, Node.isInteger]
  have hi : LinInv (stdC cols comp) (stdA cols comp) comp.constr.b (stdL cols comp) (stdU cols comp) (stdP cols)
        (some (stdX0 cols xes)) (stdLinear cols comp xes) := LinInv.initial (by simp [stdC, stdA, Coo.cols])
  have hx : (stdLinear cols comp xes).nx = 1 := by simp [stdLinear, Minlp.initial, Minlp.nx, ha, Coo.cols]
  have hna : (stdLinear cols comp xes).na = 0 := by simp [stdLinear, Minlp.initial, Minlp.na, c3]
  have hnf : (stdLinear cols comp xes).nf = 0 := by simp [stdLinear, Minlp.initial, Minlp.nf, Coo.fromNnz, Coo.rows]
  refine ⟨sp, m', h1, by rw [hf.v2i, hcols]; rfl, ?_, _, hv, hx, hna, hnf, ?_, hl, hu, hP, fun v => ⟨_, hi.evaluate (x := [v]) (by simp [hc]), ?_, ?_⟩⟩
  · rw [hf.prob]
    unfold stdProbOf
    rw [if_pos (by rw [c1, c4]; simp), if_pos (by rw [hcols]; simp [kx, Node.isInteger])]
    exact ⟨_, rfl⟩
  · exact c3
  · simp [stdLinear, Minlp.initial, Coo.fromNnz, Coo.rows]
  · simp [hc]

theorem jProb : ∃ sp m, jW.m.stdProblem HashOrder.listOrder 3 = .ok (sp, m) ∧ sp.var2index = [(kx, 0)] ∧ (∃ q, sp.prob = .lp q) ∧ ∃ q, sp.prob.views = [q, q] ∧ q.Kkt jSol ∧ jSol.Fits q := by
  obtain ⟨sp, m', h1, h2, h3, q, hv, hx, hna, hnf, hb, hl, hu, hP, hevs⟩ := jData
  obtain ⟨r, hev, hrf, hrg⟩ := hevs (some 0)
  refine ⟨sp, m', h1, h2, h3, _, hv, ⟨⟨?_, ?_, ⟨r, hev, ?_⟩, ?_, ?_⟩, ⟨r, fun _ => 0, fun _ => 0, fun _ => 0, fun _ => 0, fun _ => 1, fun _ => 0, fun _ => 10 ^ 8, hev, ?_⟩⟩, ?_⟩
  · rw [hx]; rfl
  · intro i v h
    rw [hb] at h
    simp at h
  · intro v hv'
    rw [hrf] at hv'
    simp at hv'
  · intro i x hxi
    cases i with
    | zero =>
      simp only [jSol, List.getElem?_cons_zero, Option.some.injEq] at hxi
      exact ⟨0, 0, 10 ^ 8, hxi.symm, by rw [hl]; rfl, by rw [hu]; rfl, le_refl _, by norm_num⟩
    | succ i => simp [jSol] at hxi
  · intro i hi'
    rw [hP] at hi'
    cases i <;> simp at hi'
  · rw [hx, hna, hnf]
    refine ⟨rfl, rfl, rfl, rfl, rfl, hl, hu, fun i hi' => ?_⟩
    obtain rfl : i = 0 := by omega
    refine ⟨le_refl _, by norm_num, by simp, by simp, 1, fun _ => 0, fun _ => 0, ?_, ?_, by simp, ?_⟩
    · rw [hrg]; rfl
    · intro k hk
      omega
    · norm_num
  · exact ⟨by rw [hx]; rfl, by rw [hna]; rfl, by rw [hnf]; rfl, by rw [hx]; rfl, by rw [hx]; rfl⟩

/-- A solver that answers with `sol` makes the call succeed; the final primal of `x` is then the first number of `sol`. -/
theorem jRun (sol : Sol (Option ℝ)) {t : ℝ} (hx : sol.x = [some t]) (hl : sol.lam = []) (hn : sol.nu = []) (hm : sol.mu.length = 1)
    (hpi : sol.pi.length = 1) : ∃ (mod' : Model (Option ℝ)) (m : Nat),
      jW.m.solve HashOrder.listOrder (fun _ => .ok (.ok (.solved, sol))) 3 = .ok ((.ok (), mod'), m) ∧
      mapEnv mod'.finalPrimals 0 = some (some t) := by
  obtain ⟨sp, m0, hsp, hvi, -, q, hq, qx, qa, qf, -⟩ := jData
  obtain ⟨res, mod', m, hsolve, -, hok⟩ := C55_fits (solver := fun _ => .ok (.ok (.solved, sol))) jW_reach.reachable hsp rfl (by
    intro st sol' he
    rw [Except.ok.injEq, Prod.mk.injEq] at he
    exact ⟨q, by rw [hq]; simp, by rw [← he.2]; exact ⟨by rw [qx, hx]; rfl, by rw [qa, hl]; rfl, by rw [qf, hn]; rfl, by rw [qx, hm], by rw [qx, hpi]⟩⟩)
  obtain rfl := (hok _ _ rfl).1
  obtain ⟨sp', st, sol', ⟨m1, hsp', hso⟩, -, hlen, -, hget, -⟩ := C31_primals jW_reach.reachable hsolve
  rw [hsp] at hsp'
  cases hsp'
  cases hso
  rw [hvi] at hlen
  obtain ⟨v, hv, hg⟩ := hget kx 0 (by rw [hvi]; simp)
  refine ⟨mod', m, hsolve, ?_⟩
  cases hfp : mod'.finalPrimals with
  | nil => simp [hfp] at hlen
  | cons p ps =>
    cases ps with
    | cons _ _ => simp [hfp] at hlen
    | nil =>
      rw [hfp] at hg
      simp only [hx, List.getElem?_cons_zero, Option.some.injEq] at hv
      simp only [getN] at hg
      split at hg
      · rename_i hp
        have hid : p.1.id = 0 := by
          simp [Node.ptrEq, kx] at hp
          simp_all [Node.id]
        simp [mapEnv, hid]
        rw [hv]
        simpa using hg
      · simp at hg

theorem jNs : jW.m.NoSelfDiv := by
  have hns : NoSelfDiv kx := by
    intro i a b h
    simp only [kx] at h
    rw [occurs_iff] at h
    simp [Node.arguments] at h
  constructor
  · rintro f (hf | hf)
    · simp only [jW, Objective.minimize.injEq] at hf
      exact hf ▸ hns
    · simp [jW] at hf
  · intro c hc
    simp only [jW, List.mem_cons, List.not_mem_nil, or_false] at hc
    subst hc
    refine ⟨hns, fun i a b ho => ?_⟩
    simp only [ka] at ho
    rw [occurs_iff] at ho
    simp [Node.arguments] at ho

theorem jHasVar {x : Node (Option ℝ)} (hx : jW.m.HasVar x) : x = kx := by
  have leaf : ∀ y, Occurs x y → y.arguments = [] → x = y := fun y h hy => by
    rw [occurs_iff, hy] at h
    simpa using h
  obtain ⟨hv, ⟨f, hf | hf, ho⟩ | ⟨c, hc, ho⟩⟩ := hx
  · simp only [jW, Objective.minimize.injEq] at hf
    subst hf
    exact leaf _ ho rfl
  · simp [jW] at hf
  · simp only [jW, List.mem_cons, List.not_mem_nil, or_false] at hc
    subst hc
    rcases ho with ho | ho
    · exact leaf _ ho rfl
    · rw [leaf _ ho rfl] at hv; simp [ka, Node.isVar] at hv

theorem jMeets : ∃ (solver : SolverFn (Option ℝ)) (mod' : Model (Option ℝ)) (m : Nat), ReachableApiW HashOrder.listOrder jW 3 ∧ jW.m.NoSelfDiv ∧
    jW.m.constraints.Nodup ∧ jW.m.solve HashOrder.listOrder solver 3 = .ok ((.ok (), mod'), m) ∧
    (∀ sp status sol, jW.m.SolvedBy HashOrder.listOrder 3 solver sp status sol → ∃ q ∈ sp.prob.views, q.Kkt sol) ∧
    (∀ c ∈ jW.m.constraints, ∃ σ a b, c.lhs.evaluate σ = some a ∧ c.rhs.evaluate σ = some b) ∧
    (∃ v, jW.m.minimised (mapEnv mod'.finalPrimals) = some v) ∧ jW.m.InsideBox (mapEnv mod'.finalPrimals) := by
  obtain ⟨sp, m0, hsp, hvi, -, q, hq, hk, -⟩ := jProb
  obtain ⟨mod', m, hsolve, hval⟩ := jRun jSol rfl rfl rfl rfl rfl
  refine ⟨_, mod', m, jW_reach, jNs, ?_, hsolve, ?_, ?_, ?_, ?_⟩
  · simp [jW]
  · rintro sp' st sol ⟨m1, hsp', hso⟩
    rw [hsp] at hsp'
    cases hsp'
    cases hso
    exact ⟨q, by rw [hq]; simp, hk⟩
  · intro c hc
    refine ⟨fun _ => some (some 0), 0, 0, ?_⟩
    simp only [jW, List.mem_cons, List.not_mem_nil, or_false] at hc
    subst hc
    simp [ka, kx, Node.evaluate]
  · exact ⟨0, by simp [Model.minimised, jW, kx, Node.evaluate, hval]⟩
  · refine ⟨fun x hx t ht => ?_, fun c hc hk hb a b ha hb' => ?_⟩
    · obtain rfl := jHasVar hx
      simp [kx, Node.evaluate, hval] at ht
      rw [← ht]; norm_num
    · simp only [jW, List.mem_cons, List.not_mem_nil, or_false] at hc
      subst hc
      simp [ka, kx, Node.evaluate, hval] at ha hb'
      rw [← ha, ← hb']; norm_num

/-- Non-vacuity of C60: the program meets the hypotheses of both theorems, its standard problem is an `Lp`, and there are other
assignments to compare with: every nonnegative number. -/
example : ∃ (solver : SolverFn (Option ℝ)) (mod' : Model (Option ℝ)) (m : Nat), ReachableApiW HashOrder.listOrder jW 3 ∧ jW.m.NoSelfDiv ∧
    jW.m.constraints.Nodup ∧ jW.m.solve HashOrder.listOrder solver 3 = .ok ((.ok (), mod'), m) ∧
    (∀ sp k, jW.m.stdProblem HashOrder.listOrder 3 = .ok (sp, k) → (∃ q, sp.prob = .lp q) ∨ ∃ q, sp.prob = .milp q) ∧
    (∀ sp status sol, jW.m.SolvedBy HashOrder.listOrder 3 solver sp status sol → ∃ q ∈ sp.prob.views, q.Kkt sol) ∧
    (∀ c ∈ jW.m.constraints, ∃ σ a b, c.lhs.evaluate σ = some a ∧ c.rhs.evaluate σ = some b) ∧
    (∃ v, jW.m.minimised (mapEnv mod'.finalPrimals) = some v) ∧ jW.m.InsideBox (mapEnv mod'.finalPrimals) ∧
    ∀ t : ℝ, 0 ≤ t → jW.m.Satisfies (fun _ => some (some t)) := by
  obtain ⟨solver, mod', m, h1, h2, h3, h4, h5, h6, h7, h8⟩ := jMeets
  obtain ⟨sp, m0, hsp, -, hlp, -⟩ := jProb
  refine ⟨solver, mod', m, h1, h2, h3, h4, fun sp' k h => ?_, h5, h6, h7, h8, fun t ht => ⟨fun x hx => ?_, fun c hc => ?_⟩⟩
  · rw [hsp] at h
    cases h
    exact .inl hlp
  · obtain ⟨hv, -⟩ := hx
    cases x <;> simp [Node.isVar] at hv
    exact ⟨t, rfl⟩
  · simp only [jW, List.mem_cons, List.not_mem_nil, or_false] at hc
    subst hc
    exact ⟨t, 0, rfl, rfl, by simpa [CKind.Rel, ka] using ht⟩

end Verif
