import Verif.Proofs.Duals
import Verif.Props.Kkt
import Verif.Props.Convex

/-! # Property C62: multipliers from the model to the answer, through files -/

namespace Verif

open Exact

set_option linter.unusedSectionVars false
set_option linter.unusedSimpArgs false

variable {H : HashOrder} {W : World (Option ℝ)} {n m : Nat}

/-- With a certifying command, a solved answer satisfies the first-order conditions of the standard problem. -/
theorem cmd_kkt (hr : ReachableApiW H W n) {ps : Params (Option ℝ)} {env : CmdEnv (Option ℝ)} {d : Dir}
    {sp : StdProb (Option ℝ)} {sol : Sol (Option ℝ)} (hs : W.m.SolvedBy H n (cmdFn false ps env d) sp .solved sol)
    {readNum : List Char → Option (Option ℝ)} (hcmd : CertifyingCommand env readNum) {r : ℝ → ℝ} (hro : Rounding r)
    (hfmt : LpFmt readNum env.fmtE (Option.map r))
    (hnum : ∀ q, sp.prob.IsMilp q → q.PrintsExactly r ∧ q.nx ≤ 2 ^ 64 ∧ q.na ≤ 2 ^ 64) (hnames : env.tempIn ≠ env.tempOut)
    {σ : Env (Option ℝ)} (hσ : W.m.Admissible σ) {w : ℝ} (hw : W.m.minimised σ = some w) :
    ∃ q ∈ sp.prob.views, q.Kkt sol ∧ ∃ ts : List ℝ, sol.x = ts.map some ∧ ts.length = sp.var2index.length ∧
      ∃ o, q.objectiveAt sol.x = some (some o) := by
  classical
  obtain ⟨q, k, input, output, text, level, hsp, hq, htext, hread⟩ := cmd_run hs hnames
  obtain ⟨hex, hnx64, hna64⟩ := hnum q hq
  obtain ⟨hqv, hqnx, hqna, hv2i, -, c, dd, b, l, u, p, x0, hnew, hA, hds, hri, hci, hcl⟩ := model_milp hr hsp hq hσ hw
  obtain ⟨text', file, htext', hlp, hb1, hb2, hb3, hfile⟩ := milp_file hro hfmt hnew hA hds hri hci hcl hex
  rw [htext] at htext'
  injection htext' with htext'
  subst htext'
  obtain ⟨hlin, hcobj, ⟨T, hT, hTa⟩, hbnd⟩ := milp_coefs hro hfmt hnew hA hds hri hci hcl hex htext hlp
  obtain ⟨hst1, -, -, -⟩ := C49_status hread
  have hx := hst1.1 rfl
  rw [Option.bind_eq_some_iff] at hx
  obtain ⟨out, ho, hfw⟩ := hx
  obtain ⟨first, objective, lines, es, v, y, rc, hout_eq, hlines, hnd, hes, hzero, hzeroR, hcert⟩ :=
    hcmd input output (toString level) (d.write input (fileOf text)) text file out (by simp [Dir.write]) hlp ho hfw
  have hfirst : (words first).head? = some (optimalWord false) := by
    rw [hout_eq] at hfw
    simpa [firstWord] using hfw
  have hrange : ∀ e ∈ es, e.inRange q.nx q.na := by
    intro e he
    have := hes e he
    cases e with
    | col j a b =>
      obtain ⟨⟨e', he', hn⟩, -⟩ := this
      obtain ⟨j', hj', hn'⟩ := hb2 e' he'
      rw [hn] at hn'
      have : j = j' := xName_inj.1 hn'
      subst this
      show j < q.nx
      rw [hqnx]; exact hj'
    | row i a b =>
      obtain ⟨⟨e', he', hn⟩, -⟩ := this
      obtain ⟨j', hj', hn'⟩ := hb3 e' he'
      rw [hn] at hn'
      have : i = j' := cName_inj.1 hn'
      subst this
      show i < q.na
      rw [← hqna]; exact hj'
  obtain ⟨sol', hread', hl1, hl2, hl3, hl4, hl5, hcol, hnocol, hrow, hnorow⟩ :=
    C47_solution (parseF := env.parseF) (objective := objective) (q := q) hfirst hlines hnd hrange hnx64 hna64
  simp only [Bool.false_eq_true, if_false, List.singleton_append] at hread'
  rw [ho, hout_eq, hread'] at hread
  simp only [Except.ok.injEq, Option.some.injEq, Prod.mk.injEq] at hread
  obtain ⟨-, rfl⟩ := hread
  -- columns
  have hcolv : ∀ j < q.base.nx, sol'.x[j]? = some (some (v (xName j))) ∧ sol'.pi[j]? = some (some (max (rc (xName j)) 0)) ∧
      sol'.mu[j]? = some (some (max (-rc (xName j)) 0)) := by
    intro j hj
    by_cases hm : ∃ a b, Listed.col j a b ∈ es
    · obtain ⟨a, b, hm⟩ := hm
      obtain ⟨h1, h2, h3⟩ := hcol j a b hm
      obtain ⟨-, h4, h5⟩ := hes _ hm
      simp only [Listed.value, Listed.mul] at h4 h5
      rw [h1, h2, h3, h4, h5]
      obtain ⟨p1, p2, -⟩ := C47_parts (rc (Listed.name (.col j a b)))
      rw [p1, p2]
      exact ⟨rfl, rfl, rfl⟩
    · obtain ⟨h1, h2, h3⟩ := hnocol j (by rw [hqnx]; exact hj) fun a b hm' => hm ⟨a, b, hm'⟩
      obtain ⟨b, hb, hbn⟩ := hb1 j hj
      obtain ⟨z1, z2⟩ := hzero b hb (fun e he hne => by
        cases e with
        | col j' a b =>
          rw [hbn] at hne
          have : j' = j := xName_inj.1 hne
          subst this
          exact hm ⟨_, _, he⟩
        | row i a b =>
          rw [hbn] at hne
          simp [Listed.name, xName] at hne)
      rw [hbn] at z1 z2
      rw [h1, h2, h3, z1, z2]
      simp
  have hrowv : ∀ i < q.base.na, sol'.lam[i]? = some (some (y (cName i))) := by
    intro i hi
    by_cases hm : ∃ a b, Listed.row i a b ∈ es
    · obtain ⟨a, b, hm⟩ := hm
      rw [hrow i a b hm]
      obtain ⟨-, h5⟩ := hes _ hm
      simp only [Listed.mul] at h5
      rw [h5]
      rfl
    · rw [hnorow i hi fun a b hm' => hm ⟨a, b, hm'⟩]
      have hia : i < q.base.a.rows := by rw [hqna]; exact hi
      have hmem : (cName i, T i) ∈ file.rows.map fun r => (r.1, r.2.1) := by
        rw [hT]; exact List.mem_map.2 ⟨i, List.mem_range.2 hia, rfl⟩
      obtain ⟨b, hb, hbn⟩ := List.mem_map.1 hmem
      simp only [Prod.mk.injEq] at hbn
      have z1 := hzeroR b hb (fun e he hne => by
        rw [hbn.1] at hne
        cases e with
        | col j' a b => simp [Listed.name, cName] at hne
        | row i' a b =>
          have : i' = i := cName_inj.1 hne
          subst this
          exact hm ⟨_, _, he⟩)
      rw [hbn.1] at z1
      rw [z1]
      rfl
  have hvec : ∀ (L : List (Option ℝ)) (N : Nat) (f : Nat → ℝ), L.length = N → (∀ j < N, L[j]? = some (some (f j))) → L = vec N f := by
    intro L N f hl h
    refine List.ext_getElem? fun j => ?_
    by_cases hj : j < N
    · rw [h j hj, vec_get hj]
    · rw [List.getElem?_eq_none (by omega), List.getElem?_eq_none (by simp; omega)]
  have hxs := hvec sol'.x q.base.nx (fun j => v (xName j)) (by rw [hl1, hqnx]) fun j hj => (hcolv j hj).1
  have hxs' : sol'.x = ((List.range q.base.nx).map fun j => v (xName j)).map some := by
    rw [hxs]; simp [vec]
  obtain ⟨hsat, o, ho1, ho2⟩ := hfile v ((List.range q.base.nx).map fun j => v (xName j)) (by simp [Minlp.nx])
    (fun j hj => by rw [List.getElem?_map, List.getElem?_range (show j < q.base.nx from hj)]; rfl)
  rw [← hxs'] at hsat ho2
  refine ⟨q.base, hqv, ⟨hsat.1 hcert.sat, ?_⟩, _, hxs', by simp [hv2i], o, ho2⟩
  obtain ⟨da, db, dl, du, -, -⟩ := hlin.data
  have hbnds : ∀ j < q.base.nx, ∃ lo hi : ℝ, q.base.l[j]? = some (some lo) ∧ q.base.u[j]? = some (some hi) ∧
      (some lo, xName j, some hi) ∈ file.bounds := by
    intro j hj
    obtain ⟨lo, hi, h1, h2, h3⟩ := hbnd j hj
    obtain ⟨lo', hi', h4, h5, -⟩ := hcert.sat.bounds _ h3
    simp only at h4 h5
    subst h4
    subst h5
    exact ⟨lo', hi', by rw [dl]; exact h1, by rw [du]; exact h2, h3⟩
  have hfeas := hsat.1 hcert.sat
  have hdim : b.length = q.base.a.rows ∧ l.length = q.base.a.cols ∧ u.length = q.base.a.cols ∧ p.length = q.base.a.cols := by
    by_contra hcon
    rw [C41_milp_partial.1 hcon] at hnew
    cases hnew
  have hnf : q.base.nf = 0 := by simp [Minlp.nf, hlin.f]
  have hget : ∀ (L : List (Option ℝ)) (j : Nat) (w : ℝ), L[j]? = some (some w) → ((L[j]?).getD none).getD 0 = w := by
    intro L j w h; rw [h]; rfl
  refine ⟨_, fun j => v (xName j), fun i => y (cName i), fun _ => 0, fun j => max (-rc (xName j)) 0, fun j => max (rc (xName j)) 0,
    fun j => ((q.base.l[j]?).getD none).getD 0, fun j => ((q.base.u[j]?).getD none).getD 0,
    hlin.evaluate (by rw [hl1, hqnx, List.length_map, hcl]; rfl), hxs, hvec _ _ _ hl2 hrowv, by rw [hl3, hnf]; rfl,
    hvec _ _ _ (by rw [hl4, hqnx]) fun j hj => (hcolv j hj).2.2, hvec _ _ _ (by rw [hl5, hqnx]) fun j hj => (hcolv j hj).2.1,
    hvec _ _ _ (by rw [dl, hdim.2.1]; rfl) fun j hj => ?_, hvec _ _ _ (by rw [du, hdim.2.2.1]; rfl) fun j hj => ?_, fun j hj => ?_⟩
  · obtain ⟨lo, hi, h1, h2, -⟩ := hbnds j hj
    rw [hget _ _ _ h1, h1]
  · obtain ⟨lo, hi, h1, h2, -⟩ := hbnds j hj
    rw [hget _ _ _ h2, h2]
  · obtain ⟨lo, hi, h1, h2, hmem⟩ := hbnds j hj
    beta_reduce
    rw [hget _ _ _ h1, hget _ _ _ h2]
    refine ⟨le_max_right _ _, le_max_right _ _, ?_, ?_, (c[j]?).getD 0, fun i => (q.base.a.dense i j).getD 0, fun _ => 0, ?_, ?_, ?_, ?_⟩
    · by_cases hneg : rc (xName j) < 0
      · have := hcert.upper _ hmem hneg
        simp only [Option.some.injEq] at this
        rw [this]; simp
      · rw [max_eq_right (by linarith)]; simp
    · by_cases hpos : 0 < rc (xName j)
      · have := hcert.lower _ hmem hpos
        simp only [Option.some.injEq] at this
        rw [this]; simp
      · rw [max_eq_right (by linarith)]; simp
    · have hjc : j < c.length := by rw [hcl]; exact hj
      simp [hjc]
    · intro i hi
      obtain ⟨w, hw⟩ := dense_some hds i j
      simp only [hw, Option.getD_some]
    · rw [hnf]; intro i hi; omega
    · obtain ⟨c', s, e1, e2, e3⟩ := hcert.reduced _ hmem
      simp only at e1 e2 e3
      rw [hcobj j hj] at e1
      injection e1 with e1
      have e4 : (file.rows.map fun r => coefOf r.2.1 (xName j) *. some (y r.1)) =
          ((List.range q.base.na).map fun i => (q.base.a.dense i j).getD 0 * y (cName i)).map some := by
        have : (file.rows.map fun r => coefOf r.2.1 (xName j) *. some (y r.1)) =
            (file.rows.map fun r => (r.1, r.2.1)).map fun t => coefOf t.2 (xName j) *. some (y t.1) := by
          rw [List.map_map]; rfl
        rw [this, hT, List.map_map, List.map_map, show q.base.na = q.base.a.rows from hqna.symm]
        refine List.map_congr_left fun i hi => ?_
        obtain ⟨w, hw1, hw2⟩ := hTa i (List.mem_range.1 hi) j
        simp only [Function.comp, hw1, hw2, mul_some, Option.getD_some]
      rw [e4, total_some] at e2
      injection e2 with e2
      rw [hnf, e1, e2, e3]
      obtain ⟨-, -, p3⟩ := C47_parts (rc (xName j))
      simp only [List.range_zero, List.map_nil, List.sum_nil]
      linarith

/-- What is known when a linear model was solved by Clp with a certifying command. -/
theorem cmd_certified (hr : ReachableApiW H W n) {ps : Params (Option ℝ)} {env : CmdEnv (Option ℝ)} {d : Dir}
    {mod' : Model (Option ℝ)} (h : W.m.solve H (cmdFn false ps env d) n = .ok ((.ok (), mod'), m)) (hst : mod'.solverStatus = some .solved)
    {readNum : List Char → Option (Option ℝ)} (hcmd : CertifyingCommand env readNum) {r : ℝ → ℝ} (hro : Rounding r)
    (hfmt : LpFmt readNum env.fmtE (Option.map r))
    (hnum : ∀ sp m q, W.m.stdProblem H n = .ok (sp, m) → sp.prob.IsMilp q → q.PrintsExactly r ∧ q.nx ≤ 2 ^ 64 ∧ q.na ≤ 2 ^ 64)
    (hnames : env.tempIn ≠ env.tempOut) {σ : Env (Option ℝ)} (hσ : W.m.Admissible σ) {w : ℝ} (hw : W.m.minimised σ = some w) :
    (∀ sp status sol, W.m.SolvedBy H n (cmdFn false ps env d) sp status sol → ∃ q ∈ sp.prob.views, q.Kkt sol) ∧
    (∃ v, W.m.minimised (mapEnv mod'.finalPrimals) = some v) ∧
    (∀ sp k, W.m.stdProblem H n = .ok (sp, k) → (∃ q, sp.prob = .lp q) ∨ ∃ q, sp.prob = .milp q) := by
  have key : ∀ sp status sol, W.m.SolvedBy H n (cmdFn false ps env d) sp status sol →
      ∃ q ∈ sp.prob.views, q.Kkt sol ∧ ∃ ts : List ℝ, sol.x = ts.map some ∧ ts.length = sp.var2index.length ∧
      ∃ o, q.objectiveAt sol.x = some (some o) := by
    intro sp status sol hs
    have hstat := solvedBy_unique h hs
    rw [hst] at hstat
    injection hstat with hstat
    subst hstat
    obtain ⟨k, hsp, -⟩ := id hs
    exact cmd_kkt hr hs hcmd hro hfmt (fun q hq => hnum sp k q hsp hq) hnames hσ hw
  have hcls : ∀ sp k, W.m.stdProblem H n = .ok (sp, k) → (∃ q, sp.prob = .lp q) ∨ ∃ q, sp.prob = .milp q := by
    intro sp k hsp
    obtain ⟨sp', k', hsp', -, hs'⟩ := solve_ok h
    rw [hsp] at hsp'
    cases hsp'
    rcases hs' with ⟨e, -, he⟩ | ⟨status, sol, primals, duals, hsol, hx, he⟩
    · cases he
    · obtain ⟨q, k', -, -, -, -, hsp'', hq, -⟩ := cmd_run ⟨k, hsp, hsol⟩ hnames
      rcases hq with hq | ⟨q', hq, -⟩
      · exact .inr ⟨_, hq⟩
      · exact .inl ⟨_, hq⟩
  refine ⟨fun sp status sol hs => ?_, ?_, hcls⟩
  · obtain ⟨q, hq, hk, -⟩ := key sp status sol hs
    exact ⟨q, hq, hk⟩
  · obtain ⟨sp, k, hsp, -, hs'⟩ := solve_ok h
    rcases hs' with ⟨e, -, he⟩ | ⟨status, sol, primals, duals, hsol, hx, he⟩ <;> cases he
    obtain ⟨hp, k', comp, e, ps, cols, xes, ves, hf, -, -⟩ := hr.facts hsp
    have henv : mapEnv primals = pointOf sp.var2index sol.x := by rw [hx.env hf, hf.v2i, pointOf_eq]
    obtain ⟨q, hq, -, ts, hts, hlen, o, ho⟩ := key sp status sol ⟨k, hsp, hsol⟩
    obtain ⟨b, hb⟩ := C26_linear hr hsp (hcls sp k hsp)
    obtain ⟨ys, hfeas, hlen', hobj⟩ := admissible_point hr hsp hσ hq
    obtain ⟨v1, e1, e1'⟩ := hb q q hq [] rfl ts hlen
    obtain ⟨v2, e2, e2'⟩ := hb q q hq [] rfl ys hlen'
    rw [← hts] at e1 e1'
    rw [ho] at e1
    injection e1 with e1
    subst e1
    rw [hobj, hw] at e2'
    have e2'' := e2'.symm
    rw [add_eq_some] at e2''
    obtain ⟨_, b0, -, hb0, -⟩ := e2''
    simp only [henv]
    exact ⟨o + b0, by rw [e1', hb0]; rfl⟩

/-- C62: a model is solved through files by Clp, with an external command that reports multipliers and reduced costs that certify its
solution. If `solve` succeeds and reports `Solved`, then the values and the duals that the model reports satisfy the first-order
conditions of the model as the user wrote it, strictly inside the box of ±1e8 (constraints without a reported dual, see C32, count as
having the dual 0): the dual of each constraint has the right value, sign and constraint. The numbers of the problem must survive
printing (eleven digits), and some assignment inside the box satisfies the constraints and has an objective value. -/
theorem C62_duals (hr : ReachableApiW H W n) (hs : W.m.NoSelfDiv) (hnd : W.m.constraints.Nodup) {ps : Params (Option ℝ)}
    {env : CmdEnv (Option ℝ)} {d : Dir} {mod' : Model (Option ℝ)}
    (h : W.m.solve H (cmdFn false ps env d) n = .ok ((.ok (), mod'), m)) (hst : mod'.solverStatus = some .solved)
    {readNum : List Char → Option (Option ℝ)} (hcmd : CertifyingCommand env readNum) {r : ℝ → ℝ} (hro : Rounding r)
    (hfmt : LpFmt readNum env.fmtE (Option.map r))
    (hnum : ∀ sp m q, W.m.stdProblem H n = .ok (sp, m) → sp.prob.IsMilp q → q.PrintsExactly r ∧ q.nx ≤ 2 ^ 64 ∧ q.na ≤ 2 ^ 64)
    (hnames : env.tempIn ≠ env.tempOut) {σ : Env (Option ℝ)} (hσ : W.m.Admissible σ) {w : ℝ} (hw : W.m.minimised σ = some w)
    (hbox : W.m.InsideBox (mapEnv mod'.finalPrimals)) :
    ∃ y : Constraint (Option ℝ) → ℝ,
      (∀ c ∈ W.m.constraints, getC mod'.finalDuals c = some (some (y c)) ∨ getC mod'.finalDuals c = none ∧ y c = 0) ∧
      W.m.KktAt (mapEnv mod'.finalPrimals) y := by
  obtain ⟨hk, hobj, -⟩ := cmd_certified hr h hst hcmd hro hfmt hnum hnames hσ hw
  exact C59_kkt hr hs hnd h hk (fun c hc => by
    obtain ⟨a, b, ha, hb, -⟩ := hσ.holds c hc
    exact ⟨σ, a, b, ha, hb⟩) hobj hbox

/-- C62: and then the reported values are a solution of the model: they satisfy it, and no assignment that satisfies it has a better
objective value, be it inside or outside the box. (The certificate makes this true without trusting the command's claim of
optimality.) -/
theorem C62_optimal (hr : ReachableApiW H W n) (hs : W.m.NoSelfDiv) (hnd : W.m.constraints.Nodup) {ps : Params (Option ℝ)}
    {env : CmdEnv (Option ℝ)} {d : Dir} {mod' : Model (Option ℝ)}
    (h : W.m.solve H (cmdFn false ps env d) n = .ok ((.ok (), mod'), m)) (hst : mod'.solverStatus = some .solved)
    {readNum : List Char → Option (Option ℝ)} (hcmd : CertifyingCommand env readNum) {r : ℝ → ℝ} (hro : Rounding r)
    (hfmt : LpFmt readNum env.fmtE (Option.map r))
    (hnum : ∀ sp m q, W.m.stdProblem H n = .ok (sp, m) → sp.prob.IsMilp q → q.PrintsExactly r ∧ q.nx ≤ 2 ^ 64 ∧ q.na ≤ 2 ^ 64)
    (hnames : env.tempIn ≠ env.tempOut) {σ : Env (Option ℝ)} (hσ : W.m.Admissible σ) {w : ℝ} (hw : W.m.minimised σ = some w)
    (hbox : W.m.InsideBox (mapEnv mod'.finalPrimals)) :
    W.m.Satisfies (mapEnv mod'.finalPrimals) ∧
    ∀ τ, W.m.Satisfies τ →
      ∃ a b, W.m.minimised (mapEnv mod'.finalPrimals) = some a ∧ W.m.minimised τ = some b ∧ a ≤ b := by
  obtain ⟨hk, hobj, hlin⟩ := cmd_certified hr h hst hcmd hro hfmt hnum hnames hσ hw
  exact C60_linear hr hs hnd h hlin hk (fun c hc => by
    obtain ⟨a, b, ha, hb, -⟩ := hσ.holds c hc
    exact ⟨σ, a, b, ha, hb⟩) hobj hbox


/-! ## Concrete case -/

/-- How the numbers of the example are printed. -/
noncomputable def kFmt : Option ℝ → List Char
  | none => ['n']
  | some v => if v = 1 then ['1'] else if v = -1 then ['-', '1'] else if v = 10 ^ 8 then ['8'] else if v = -10 ^ 8 then ['-', '8'] else ['0']

/-- The numbers that are read. -/
noncomputable def kRead : List Char → Option (Option ℝ)
  | ['n'] => some none
  | ['0'] => some (some 0)
  | ['1'] => some (some 1)
  | ['-', '1'] => some (some (-1))
  | ['2'] => some (some 2)
  | ['8'] => some (some (10 ^ 8))
  | ['-', '8'] => some (some (-10 ^ 8))
  | _ => none

/-- Numbers other than 0, ±1 and ±1e8 are printed as 0. -/
noncomputable def kRound (v : ℝ) : ℝ := if v = 1 ∨ v = -1 ∨ v = 10 ^ 8 ∨ v = -10 ^ 8 then v else 0

theorem kRound_ok : Rounding kRound := by
  refine ⟨by simp [kRound], by simp [kRound], fun v => ?_⟩
  unfold kRound
  have : (-v = 1 ∨ -v = -1 ∨ -v = 10 ^ 8 ∨ -v = -10 ^ 8) ↔ (v = 1 ∨ v = -1 ∨ v = 10 ^ 8 ∨ v = -10 ^ 8) := by
    constructor <;> rintro (h | h | h | h) <;> [right; left; (right; right; right); (right; right; left); right; left; (right; right; right); (right; right; left)]
      <;> (try left) <;> linarith
  simp only [this]
  split <;> simp

theorem kFmt_ok : LpFmt kRead kFmt (Option.map kRound) := by
  refine ⟨fun v => ?_, fun v => ?_, fun i => ?_, rfl⟩
  · unfold kFmt
    split
    · exact ⟨by simp, by decide⟩
    · split_ifs <;> exact ⟨by simp, by decide⟩
  · cases v with
    | none => rfl
    | some v =>
      simp only [kFmt, Option.map_some, kRound]
      split_ifs with h1 h2 h3 h4 h5 <;> simp_all [kRead]
  · unfold xName
    rfl

/-- What the LP file of the example says. -/
noncomputable def kFile : LpContent (Option ℝ) :=
  ⟨[(some 1, xName 0)], [(cName 0, [(some 1, xName 0)], some 0)], [(some 0, xName 0, some (10 ^ 8))], []⟩

/-- The report about it. -/
def kOut : FileData := fileOf "optimal\nobjective value 0\n 0 c_0 0 -1\n 0 x_0 0 2\n".toList

open Classical in
/-- A command that can solve one problem, and otherwise leaves no output file. -/
noncomputable def kEnv : CmdEnv (Option ℝ) where
  fmtE := kFmt
  parseF := kRead
  tempIn := some "clp1.lp"
  tempOut := some "clp1.sol"
  writeEnd := .written
  command := fun _ args d => match args with
    | [input, _, _, _, _, _, _, output] =>
      if ∃ text, d input = some (fileOf text) ∧ readLp kRead text = some kFile then (d.write output kOut, true) else (d.remove output, true)
    | _ => (d, true)

theorem kCmd : CertifyingCommand kEnv kRead := by
  intro input output level d text file out hin hlp hout _
  simp only [kEnv] at hout
  split at hout
  · rename_i he
    obtain ⟨text', he, hl⟩ := he
    rw [hin] at he
    injection he with he
    rw [readLp_file he, hl] at hlp
    injection hlp with hlp
    subst hlp
    simp only [Dir.write, if_true, Option.some.injEq] at hout
    subst hout
    refine ⟨"optimal".toList, "objective value 0".toList, [" 0 c_0 0 -1".toList, " 0 x_0 0 2".toList],
      [.row 0 (some 0) (some (-1)), .col 0 (some 0) (some 2)], fun _ => 0, fun _ => -1, fun _ => 2, by decide +kernel, ?_, ?_, ?_, ?_, ?_, ?_⟩
    · refine List.Forall₂.cons ⟨['0'], ['0'], ['-', '1'], [], by decide +kernel, rfl, rfl⟩
        (List.Forall₂.cons ⟨['0'], ['0'], ['2'], [], by decide +kernel, rfl, rfl⟩ List.Forall₂.nil)
    · decide +kernel
    · intro e he
      simp only [List.mem_cons, List.not_mem_nil, or_false] at he
      rcases he with rfl | rfl
      · exact ⟨⟨_, List.mem_singleton.2 rfl, rfl⟩, rfl⟩
      · exact ⟨⟨_, List.mem_singleton.2 rfl, rfl⟩, rfl, rfl⟩
    · intro b hb hno
      simp only [kFile, List.mem_singleton] at hb
      subst hb
      exact absurd rfl (hno (.col 0 (some 0) (some 2)) (by simp))
    · intro b hb hno
      simp only [kFile, List.mem_singleton] at hb
      subst hb
      exact absurd rfl (hno (.row 0 (some 0) (some (-1))) (by simp))
    · refine ⟨⟨?_, ?_, by simp [kFile]⟩, ?_, ?_, ?_⟩
      · intro r hr
        simp only [kFile, List.mem_singleton] at hr
        subst hr
        exact ⟨0, rfl, by simp [termsValue, total]⟩
      · intro b hb
        simp only [kFile, List.mem_singleton] at hb
        subst hb
        exact ⟨0, 10 ^ 8, rfl, rfl, le_refl _, by norm_num⟩
      · intro b hb
        simp only [kFile, List.mem_singleton] at hb
        subst hb
        refine ⟨1, -1, ?_, ?_, by norm_num⟩
        · simp [coefOf, kFile, total]
        · simp [coefOf, kFile, total]
      · intro b hb _
        simp only [kFile, List.mem_singleton] at hb
        subst hb
        rfl
      · intro b hb h
        norm_num at h
  · simp [Dir.remove] at hout

/-- Non-vacuity of C62: `minimise x subject to x >= 0 and x == 0` is solved through files, with a command that reports `x = 0`, the row
multiplier -1 and the reduced cost 2; all hypotheses of the theorems are met, and the reported duals are 2 of `x >= 0` and -1 of
`x == 0`. -/
example : ∃ mod' m, kW.m.solve HashOrder.listOrder (cmdFn false clpParams kEnv fun _ => none) 5 = .ok ((.ok (), mod'), m) ∧
    mod'.solverStatus = some .solved ∧ ReachableApiW HashOrder.listOrder kW 5 ∧ kW.m.NoSelfDiv ∧ kW.m.constraints.Nodup ∧
    CertifyingCommand kEnv kRead ∧ Rounding kRound ∧ LpFmt kRead kEnv.fmtE (Option.map kRound) ∧
    (∀ sp m q, kW.m.stdProblem HashOrder.listOrder 5 = .ok (sp, m) → sp.prob.IsMilp q →
      q.PrintsExactly kRound ∧ q.nx ≤ 2 ^ 64 ∧ q.na ≤ 2 ^ 64) ∧
    kEnv.tempIn ≠ kEnv.tempOut ∧ kW.m.Admissible (fun _ => some (some 0)) ∧ kW.m.minimised (fun _ => some (some 0)) = some 0 ∧
    kW.m.InsideBox (mapEnv mod'.finalPrimals) ∧
    getC mod'.finalDuals ka = some (some 2) ∧ getC mod'.finalDuals kb = some (some (-1)) := by
  obtain ⟨sp, m0, q, x0, hsp, hvi, hprob, hlidx, hnew⟩ := kData
  have hWF : (⟨(1, 1), [0], [0], [some 1]⟩ : Coo (Option ℝ)).WF := by simp [Coo.WF]
  have hr1 : kRound 1 = 1 := by simp [kRound]
  have hr0 : kRound 0 = 0 := by simp [kRound]
  have hr8 : kRound (10 ^ 8) = 10 ^ 8 := by simp [kRound]
  obtain ⟨text, htext, hlp⟩ := C44_text kFmt_ok hnew hWF (by simp [Coo.rows]) (by simp [Coo.cols]) (by simp [Coo.cols])
  have hab : (FloatOps.abs (some (1 : ℝ)) : Option ℝ) = some 1 := by
    show some (if (0 : ℝ) ≤ 1 then (1 : ℝ) else -1) = some 1
    norm_num
  have hfile : readLp kRead text = some kFile := by
    rw [hlp]
    simp [kFile, termVal, Coo.rows, Coo.triplets, rowOf, sumRow, upsert, List.range_succ, hr0, hr8, hab]
  have hdim : q.baseMilp.nx = 1 ∧ q.baseMilp.na = 1 ∧ q.baseMilp.base.a = ⟨(1, 1), [0], [0], [some 1]⟩ ∧
      q.baseMilp.c = [some 1] ∧ q.baseMilp.base.b = [some 0] ∧ q.baseMilp.base.l = [some 0] ∧ q.baseMilp.base.u = [some (10 ^ 8)] := by
    obtain ⟨q', hq', e1, e2, e3, e4, e5, -, -, e6, e7⟩ := C41_milp_partial (c := [some (1 : ℝ)]) (a := ⟨(1, 1), [0], [0], [some 1]⟩) (b := [some 0])
      (l := [some 0]) (u := [some (10 ^ 8)]) (p := [false]) (x0 := x0) |>.2 ⟨rfl, rfl, rfl, rfl⟩
    rw [hnew] at hq'
    injection hq' with hq'
    subst hq'
    exact ⟨by rw [e6]; rfl, by rw [e7]; rfl, e2, e1, e3, e4, e5⟩
  obtain ⟨hnx, hna, hqa, hqc, hqb, hql, hqu⟩ := hdim
  have hex : q.baseMilp.PrintsExactly kRound := by
    refine ⟨?_, ?_, ?_, ?_, ?_⟩
    · intro w hw; rw [hqc] at hw; simp at hw; rw [hw, hr1]
    · intro i j w hw
      rw [hqa] at hw
      by_cases hi : i = 0
      · by_cases hj : j = 0
        · subst hi; subst hj
          simp [Coo.dense, Coo.triplets, rowOf, valuesAt, total] at hw
          rw [← hw, hr1]
        · have hj' : (0 == j) = false := by simpa using Ne.symm hj
          subst hi
          simp [Coo.dense, Coo.triplets, rowOf, valuesAt, total, hj'] at hw
          rw [← hw, hr0]
      · have hi' : (0 == i) = false := by simpa using Ne.symm hi
        simp [Coo.dense, Coo.triplets, rowOf, valuesAt, total, hi'] at hw
        rw [← hw, hr0]
    · intro w hw; rw [hqb] at hw; simp at hw; rw [hw, hr0]
    · intro w hw; rw [hql] at hw; simp at hw; rw [hw, hr0]
    · intro w hw; rw [hqu] at hw; simp at hw; rw [hw, hr8]
  have hqf : q.baseMilp.base.buf.f = [] := by
    have hlin := (milp_coefs kRound_ok kFmt_ok (c := [1]) (d := [1]) hnew hWF rfl (by simp [Coo.rows]) (by simp [Coo.cols]) (by simp [Coo.cols])
      hex htext hfile).1
    exact hlin.f
  obtain ⟨sol, hread, hx, hlam, hnu, hmu, hpi, hcol, -, hrow, -⟩ := C47_solution (parseF := kRead) (first := "optimal".toList)
    (objective := "objective value 0".toList) (lines := [" 0 c_0 0 -1".toList, " 0 x_0 0 2".toList])
    (es := [.row 0 (some 0) (some (-1)), .col 0 (some 0) (some 2)]) (q := q.baseMilp) (cbc := false) (by decide +kernel)
    (List.Forall₂.cons ⟨['0'], ['0'], ['-', '1'], [], by decide +kernel, rfl, rfl⟩
        (List.Forall₂.cons ⟨['0'], ['0'], ['2'], [], by decide +kernel, rfl, rfl⟩ List.Forall₂.nil))
    (by decide +kernel) (by simp [Listed.inRange, hnx, hna]) (by rw [hnx]; norm_num) (by rw [hna]; norm_num)
  have hout : (("optimal".toList :: ((if false = true then [] else ["objective value 0".toList]) ++ [" 0 c_0 0 -1".toList, " 0 x_0 0 2".toList])).map some) = kOut := by
    decide +kernel
  rw [hout] at hread
  have hsv : cmdFn false clpParams kEnv (fun _ => none) sp.prob = .ok (.ok (.solved, sol)) := by
    have hc : ∃ t, Dir.write (fun _ => none) "clp1.lp" (fileOf text) "clp1.lp" = some (fileOf t) ∧ readLp kRead t = some kFile :=
      ⟨text, by simp [Dir.write], hfile⟩
    have hcmd : kEnv.command "clp" (cmdArgs "clp1.lp" "clp1.sol" 5) (Dir.write (fun _ => none) "clp1.lp" (fileOf text)) =
        (Dir.write (Dir.write (fun _ => none) "clp1.lp" (fileOf text)) "clp1.sol" kOut, true) := by
      simp only [kEnv, cmdArgs]
      rw [if_pos hc]
    have hw : writeLp kEnv q.baseMilp "clp1.lp" (fun _ => none) = .ok (Dir.write (fun _ => none) "clp1.lp" (fileOf text), true) := by
      simp only [writeLp, show kEnv.writeEnd = .written from rfl, show kEnv.fmtE = kFmt from rfl, htext, R.ok_bind]
    have hg : getParam (clpParams : Params (Option ℝ)) "logLevel" = some (.int 5) := rfl
    have hd : ((Dir.write (Dir.write (fun _ => none) "clp1.lp" (fileOf text)) "clp1.sol" kOut).tryRemove kEnv.stuck "clp1.lp") "clp1.sol" = some kOut := by
      rw [tryRemove_other (by decide)]
      simp [Dir.write]
    simp only [cmdFn, clpFn, clpSolve, hprob, cmdSolve, cmdName, Bool.false_eq_true, if_false, show kEnv.tempIn = some "clp1.lp" from rfl,
      show kEnv.tempOut = some "clp1.sol" from rfl, hw, R.ok_bind, hg, hcmd, Bool.not_true, hd, show kEnv.parseF = kRead from rfl, hread]
  have hxs : sol.x = [some 0] := by
    have h0 := (hcol 0 (some 0) (some 2) (by simp)).1
    rw [hnx] at hx
    match hs : sol.x, hx with
    | [a], _ => rw [hs] at h0; simpa using h0
  obtain ⟨res, mod', m, hsolve, -, hok⟩ := C55_fits (solver := cmdFn false clpParams kEnv fun _ => none) kW_reach.reachable hsp hsv (by
    intro st sol' he
    rw [Except.ok.injEq, Prod.mk.injEq] at he
    refine ⟨q.baseMilp.base, by rw [hprob]; simp [Problem.views], ?_⟩
    rw [← he.2]
    refine ⟨?_, hlam, ?_, ?_, ?_⟩
    · rw [hx, hnx, Minlp.nx, hqa]; rfl
    · rw [hnu]; simp [Minlp.nf, hqf]
    · rw [hmu, hnx, Minlp.nx, hqa]; rfl
    · rw [hpi, hnx, Minlp.nx, hqa]; rfl)
  obtain ⟨rfl, hst⟩ := hok _ _ rfl
  have hval := kVal hsolve hsp hvi hsv hxs
  refine ⟨mod', m, hsolve, hst, kW_reach, kNoSelf, by simp [kW, ka, kb], kCmd, kRound_ok, kFmt_ok, ?_, by decide, ?_, ?_, kBox hval, ?_, ?_⟩
  · intro sp' m' q' hsp' hq'
    rw [hsp] at hsp'
    cases hsp'
    have : q' = q.baseMilp := by
      rcases hq' with hq' | ⟨q'', hq', rfl⟩ <;> rw [hprob] at hq' <;> cases hq'
      rfl
    subst this
    exact ⟨hex, by rw [hnx]; norm_num, by rw [hna]; norm_num⟩
  · refine ⟨fun c hc => ?_, fun x hx hi => ?_, fun x hx => ?_, fun c hc _ _ a b ha hb => ?_⟩
    · simp only [kW, List.mem_cons, List.not_mem_nil, or_false] at hc
      rcases hc with rfl | rfl <;> exact ⟨0, 0, by simp [ka, kb, kx, Node.evaluate], by simp [ka, kb, Node.evaluate], by simp [ka, kb, CKind.Rel]⟩
    · rw [kVars hx] at hi; simp [kx, Node.isInteger] at hi
    · rw [kVars hx]
      exact ⟨0, by simp [kx, Node.evaluate], by norm_num, by norm_num⟩
    · simp only [kW, List.mem_cons, List.not_mem_nil, or_false] at hc
      rcases hc with rfl | rfl <;> simp [ka, kb, kx, Node.evaluate] at ha hb <;> rw [← ha, ← hb] <;> norm_num
  · simp [Model.minimised, kW, kx, Node.evaluate]
  · obtain ⟨sp', st, sol', ⟨k1, h1, h2⟩, -, -, dL, -⟩ := C32_duals_partial kW_reach hsolve
    rw [hsp] at h1
    cases h1
    rw [hsv] at h2
    cases h2
    rcases dL ka (by simp [kW]) rfl with ⟨i, w, -, h3, h4⟩ | ⟨-, h3, -⟩
    · have hi : i = 0 := by
        have := (List.getElem?_eq_some_iff.1 h3).1
        rw [hpi, hnx] at this
        omega
      subst hi
      rw [(hcol 0 (some 0) (some 2) (by simp)).2.1] at h3
      rw [h4, ← h3]
      norm_num [FloatOps.lt, zero]
    · exact absurd hlidx (h3 0)
  · obtain ⟨sp', st, sol', ⟨k1, h1, h2⟩, dE, -⟩ := C32_duals_partial kW_reach hsolve
    rw [hsp] at h1
    cases h1
    rw [hsv] at h2
    cases h2
    obtain ⟨k2, w, h4, h3⟩ := dE kb (by simp [kW]) rfl
    rcases h3 with ⟨-, h3⟩ | ⟨-, h3⟩
    · have hi : k2 = 0 := by
        have := (List.getElem?_eq_some_iff.1 h3).1
        rw [hlam, hna] at this
        omega
      subst hi
      rw [hrow 0 (some 0) (some (-1)) (by simp)] at h3
      rw [h4, ← h3]
    · rw [hnu] at h3; simp at h3

end Verif
