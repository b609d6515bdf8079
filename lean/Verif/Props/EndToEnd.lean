import Verif.Proofs.EndToEnd
import Verif.Proofs.Ipopt2
import Verif.Props.CmdSolver

/-! # Property C57: from the model to the answer, through files -/

namespace Verif

open Exact

set_option linter.unusedSectionVars false
set_option linter.unusedSimpArgs false

section
variable {F : Type} [FloatOps F] {H : HashOrder} {W : World F} {n m : Nat}

/-- Clp or Cbc as the solver of a model. -/
def cmdFn (cbc : Bool) (ps : Params F) (env : CmdEnv F) (d : Dir) : SolverFn F :=
  if cbc then cbcFn ps env d else clpFn ps env d

/-- A run of the solver on a model: the file that is written, and the file that is read. -/
theorem cmd_run {cbc : Bool} {ps : Params F} {env : CmdEnv F} {d : Dir}
    {sp : StdProb F} {status : Status} {sol : Sol F} (hs : W.m.SolvedBy H n (cmdFn cbc ps env d) sp status sol)
    (hnames : env.tempIn ≠ env.tempOut) :
    ∃ q k input output text level, W.m.stdProblem H n = .ok (sp, k) ∧ sp.prob.IsMilp q ∧ q.lpText env.fmtE = .ok text ∧
      readSolFile env.parseF ((env.command (if cbc then "cbc" else "clp") [input, "logLevel", toString (level : Int), "printingOptions", "all", "solve", "solution", output]
        (d.write input (fileOf text))).1 output) q cbc = .ok (some (status, sol)) := by
  obtain ⟨k, hsp, hsol⟩ := hs
  obtain ⟨d', hrun⟩ : ∃ d', (if cbc then cbcSolve else clpSolve) ps env sp.prob d = .ok (d', .ok (status, sol)) := by
    unfold cmdFn cbcFn clpFn at hsol
    cases cbc
    · simp only [Bool.false_eq_true, if_false] at hsol ⊢
      rw [R.bind_ok_iff] at hsol
      obtain ⟨⟨d', x⟩, hx, he⟩ := hsol
      simp only [Except.ok.injEq] at he
      exact ⟨d', by rw [hx, he]⟩
    · simp only [if_true] at hsol ⊢
      rw [R.bind_ok_iff] at hsol
      obtain ⟨⟨d', x⟩, hx, he⟩ := hsol
      simp only [Except.ok.injEq] at he
      exact ⟨d', by rw [hx, he]⟩
  obtain ⟨q, input, output, text, level, hq, hin, hout, htext, -, -, -, hread⟩ := C49_solve hrun
  have hne : input ≠ output := fun h => hnames (by rw [hin, hout, h])
  have hread := hread hne
  exact ⟨q, k, input, output, text, level, hsp, hq, htext, hread⟩

theorem solvedBy_unique {mod mod' : Model F} {solver : SolverFn F} (h : mod.solve H solver n = .ok ((.ok (), mod'), m))
    {sp : StdProb F} {status : Status} {sol : Sol F} (hs : mod.SolvedBy H n solver sp status sol) :
    mod'.solverStatus = some status := by
  obtain ⟨-, -, sp', k, hsp, hcase⟩ := C30_call h
  obtain ⟨k', hsp', hsol⟩ := hs
  rw [hsp] at hsp'
  cases hsp'
  rcases hcase with ⟨e, he, -⟩ | ⟨status', sol', -, hs', hst⟩
  · cases he
  · rw [hsol] at hs'
    cases hs'
    exact hst

end

section
variable {K : Type} [Field K] [LinearOrder K] [IsStrictOrderedRing K] [Trig K]
variable {H : HashOrder} {W : World (Option K)} {n m : Nat}

theorem foldl_some {l : List (Option K × Option K)} {s : Option K} {t : K}
    (h : l.foldl (fun s e => s +. (e.1 *. e.2)) s = some t) : (∃ s', s = some s') ∧ ∀ e ∈ l, ∃ w, e.1 = some w := by
  induction l generalizing s with
  | nil => exact ⟨⟨t, h⟩, by simp⟩
  | cons e l ih =>
    obtain ⟨⟨s', hs⟩, h2⟩ := ih h
    rw [add_eq_some] at hs
    obtain ⟨x, y, hx, hy, -⟩ := hs
    rw [mul_eq_some] at hy
    obtain ⟨a, b, ha, -⟩ := hy
    refine ⟨⟨x, hx⟩, ?_⟩
    intro e' he'
    rcases List.mem_cons.1 he' with rfl | he'
    · exact ⟨a, ha⟩
    · exact h2 e' he'

/-- For a linear model, the standard problem is made of numbers, if some admissible assignment gives the objective a value. -/
theorem model_milp (hr : ReachableApiW H W n) {sp : StdProb (Option K)} (hsp : W.m.stdProblem H n = .ok (sp, m))
    {q : Milp (Option K)} (hq : sp.prob.IsMilp q)
    {σ : Env (Option K)} (hσ : W.m.Admissible σ) {w : K} (hw : W.m.minimised σ = some w) :
    q.base ∈ sp.prob.views ∧ q.nx = q.base.nx ∧ q.base.a.rows = q.na ∧ q.base.nx = sp.var2index.length ∧
    (∃ ys : List K, q.base.Feasible (ys.map some)) ∧
    ∃ (c d : List K) (b l u : List (Option K)) (p : List Bool) (x0 : Option (List (Option K))),
      Milp.new (c.map some) q.base.a b l u p x0 = .ok q ∧ q.base.a.WF ∧ q.base.a.data = d.map some ∧
      (∀ i ∈ q.base.a.rowInds, i < q.base.a.rows) ∧ (∀ j ∈ q.base.a.colInds, j < q.base.a.cols) ∧ c.length = q.base.a.cols := by
  obtain ⟨hp, k, comp, e, ps, cols, xes, ves, hfc, -⟩ := hr.facts hsp
  have hqv : q.base ∈ sp.prob.views := by
    rcases hq with hq | ⟨q', hq, rfl⟩ <;> rw [hq] <;> simp [Problem.views]
  have hcls : (∃ q, sp.prob = .lp q) ∨ ∃ q, sp.prob = .milp q := by
    rcases hq with hq | ⟨q', hq, -⟩
    · exact .inr ⟨_, hq⟩
    · exact .inl ⟨_, hq⟩
  have hqe : q = ⟨stdC cols comp, stdLinear cols comp xes⟩ := by
    rw [hfc.prob] at hq
    unfold stdProbOf at hq
    split at hq
    · split at hq
      · rcases hq with hq | ⟨q', hq, rfl⟩
        · cases hq
        · injection hq with hq; rw [← hq]
      · rcases hq with hq | ⟨q', hq, rfl⟩
        · injection hq with hq; rw [← hq]
        · cases hq
    · split at hq
      · rcases hq with hq | ⟨q', hq, rfl⟩ <;> cases hq
      · rcases hq with hq | ⟨q', hq, rfl⟩ <;> cases hq
  obtain ⟨ys, hfeas, hlen, hobj⟩ := admissible_point hr hsp hσ hqv
  have hlen' : ys.length = cols.length := by rw [hlen, hfc.v2i]; simp
  have hlin : LinInv (stdC cols comp) (stdA cols comp) comp.constr.b (stdL cols comp) (stdU cols comp) (stdP cols)
      (some (stdX0 cols xes)) q.base := by rw [hqe]; exact LinInv.initial (by simp [stdC, stdA, Coo.cols])
  have hA : (stdA cols comp).WF := by simp [Coo.WF, stdA]
  have hrange := stdA_range hfc
  have hba : q.base.a = stdA cols comp := hlin.data.1
  have hbb : q.base.b = comp.constr.b := hlin.data.2.1
  have hnx : q.base.nx = (stdA cols comp).cols := by rw [Minlp.nx, hba]
  -- the objective coefficients are numbers
  obtain ⟨cs, hcs⟩ : ∃ cs : List K, stdC cols comp = cs.map some := by
    obtain ⟨b, hb⟩ := C26_linear hr hsp hcls
    obtain ⟨v, hv, hv'⟩ := hb q.base q.base hqv [] rfl ys hlen
    rw [hobj, hw] at hv'
    have hv'' := hv'.symm
    rw [add_eq_some] at hv''
    obtain ⟨v0, b0, rfl, -⟩ := hv''
    unfold Minlp.objectiveAt at hv
    rw [hlin.evaluate (by simp [stdC, hlen'])] at hv
    simp only [Option.some.injEq, unrolledDot_exact] at hv
    have hall := (foldl_some hv).2
    refine ⟨(stdC cols comp).map (·.getD 0), ?_⟩
    rw [List.map_map]
    refine (List.map_id _).symm.trans (List.map_congr_left fun x hx => ?_)
    obtain ⟨i, hi, hxi⟩ := List.getElem_of_mem hx
    have hlc : (stdC cols comp).length = cols.length := by simp [stdC]
    have hi2 : i < (ys.map some).length := by simp; omega
    obtain ⟨w, hw⟩ := hall (x, (ys.map some)[i]) (by
      rw [List.mem_iff_getElem?]
      exact ⟨i, by rw [List.getElem?_zip_eq_some]; exact ⟨by rw [List.getElem?_eq_getElem hi, hxi], List.getElem?_eq_getElem hi2⟩⟩)
    simp only at hw
    subst hw
    rfl
  -- the matrix entries are numbers
  obtain ⟨ds, hds⟩ : ∃ ds : List K, (stdA cols comp).data = ds.map some := by
    refine ⟨(stdA cols comp).data.map (·.getD 0), ?_⟩
    rw [List.map_map]
    refine (List.map_id _).symm.trans (List.map_congr_left fun x hx => ?_)
    have : ∃ t ∈ (stdA cols comp).triplets, t.2.2 = x := by
      obtain ⟨i, hi, hxi⟩ := List.getElem_of_mem hx
      have h1 : i < (stdA cols comp).rowInds.length := by rw [hA.2]; exact hi
      have h2 : i < (stdA cols comp).colInds.length := by rw [← hA.1]; exact h1
      refine ⟨((stdA cols comp).rowInds[i], (stdA cols comp).colInds[i], x), ?_, rfl⟩
      rw [List.mem_iff_getElem?]
      refine ⟨i, ?_⟩
      unfold Coo.triplets
      rw [List.getElem?_zip_eq_some, List.getElem?_zip_eq_some]
      exact ⟨List.getElem?_eq_getElem h1, List.getElem?_eq_getElem h2, by rw [List.getElem?_eq_getElem hi, hxi]⟩
    obtain ⟨t, ht, rfl⟩ := this
    have hrow := (hrange t ht).1
    have hbl : t.1 < q.base.b.length := by rw [hbb]; exact hrow
    obtain ⟨s, -, hs⟩ := hfeas.linear t.1 _ (List.getElem?_eq_getElem hbl)
    rw [total_osum] at hs
    obtain ⟨y, hy⟩ := (osum_eq_some hs).1 (t.2.2 *. ((ys.map some)[t.2.1]?).getD none) (List.mem_map.2 ⟨t.2, by
      rw [hba]
      exact List.mem_map.2 ⟨t, List.mem_filter.2 ⟨ht, by simp⟩, rfl⟩, rfl⟩)
    rw [mul_eq_some] at hy
    obtain ⟨a, b, ha, -⟩ := hy
    simp only [id, Function.comp, ha]
    rfl
  have hnew : Milp.new (cs.map some) (stdA cols comp) comp.constr.b (stdL cols comp) (stdU cols comp) (stdP cols)
      (some (stdX0 cols xes)) = .ok q := by
    have : DimsOk (Coo.fromNnz ((stdA cols comp).cols, (stdA cols comp).cols) 0) (stdA cols comp) comp.constr.b
        (Coo.fromNnz (0, (stdA cols comp).cols) 0) [] (stdL cols comp) (stdU cols comp) (stdP cols) :=
      dims_linear.2 ⟨rfl, rfl, by simp [stdL, stdA, Coo.cols], by simp [stdU, stdA, Coo.cols], by simp [stdP, stdA, Coo.cols]⟩
    simp only [Milp.new, Minlp.new_ok (by simp) this, R.ok_bind, Except.ok.injEq]
    rw [hqe, ← hcs]
    rfl
  have hcl : cs.length = (stdA cols comp).cols := by
    have := congrArg List.length hcs
    simpa [stdC, stdA, Coo.cols] using this.symm
  refine ⟨hqv, ?_, ?_, ?_, ⟨ys, hfeas⟩, cs, ds, comp.constr.b, stdL cols comp, stdU cols comp, stdP cols, some (stdX0 cols xes), ?_⟩
  · rw [hqe]; simp [Milp.nx, stdC, stdLinear, Minlp.initial, Minlp.nx, stdA, Coo.cols]
  · rw [hqe]; simp [Milp.na, stdLinear, Minlp.initial, stdA, Coo.rows]
  · rw [hnx, ← hcl, ← List.length_map (as := cs) some, ← hcs, hfc.v2i]; simp [stdC]
  rw [hba]
  refine ⟨hnew, hA, hds, fun i hi => ?_, fun j hj => ?_, hcl⟩
  · rw [← triplets_rows hA] at hi
    obtain ⟨t, ht, rfl⟩ := List.mem_map.1 hi
    exact (hrange t ht).1
  · rw [← triplets_cols hA] at hj
    obtain ⟨t, ht, rfl⟩ := List.mem_map.1 hj
    exact (hrange t ht).2

/-- The file that is written for a model says the standard problem, if some admissible assignment gives the objective a value (then
all coefficients are numbers). -/
theorem model_file (hr : ReachableApiW H W n) {sp : StdProb (Option K)} (hsp : W.m.stdProblem H n = .ok (sp, m)) {r : K → K}
    (hro : Rounding r) {readNum : List Char → Option (Option K)} {fmtE : Option K → List Char}
    (hf : LpFmt readNum fmtE (Option.map r)) {q : Milp (Option K)} (hq : sp.prob.IsMilp q) (hex : q.PrintsExactly r)
    {σ : Env (Option K)} (hσ : W.m.Admissible σ) {w : K} (hw : W.m.minimised σ = some w) :
    q.base ∈ sp.prob.views ∧ q.nx = q.base.nx ∧ q.base.a.rows = q.na ∧ (∃ ys : List K, q.base.Feasible (ys.map some)) ∧
    ∃ text file, q.lpText fmtE = .ok text ∧ readLp readNum text = some file ∧
      (∀ j < q.base.nx, ∃ e ∈ file.bounds, e.2.1 = xName j) ∧ (∀ e ∈ file.bounds, ∃ j < q.base.nx, e.2.1 = xName j) ∧
      (∀ e ∈ file.rows, ∃ i < q.base.a.rows, e.1 = cName i) ∧
      ∀ (v : List Char → K) (ts : List K), ts.length = q.base.nx → (∀ j < q.base.nx, ts[j]? = some (v (xName j))) →
        (file.Sat v ↔ q.base.Feasible (ts.map some)) ∧
        ∃ w, termsValue file.obj v = some w ∧ q.base.objectiveAt (ts.map some) = some (some w) := by
  obtain ⟨hqv, h1, h2, -, h3, c, d, b, l, u, p, x0, hnew, hA, hds, hri, hci, hcl⟩ := model_milp hr hsp hq hσ hw
  exact ⟨hqv, h1, h2, h3, milp_file hro hf hnew hA hds hri hci hcl hex⟩

/-- What is known when `solve` of a model with a correct command returned. -/
theorem cmd_answer (hr : ReachableApiW H W n) {cbc : Bool} {ps : Params (Option K)} {env : CmdEnv (Option K)} {d : Dir}
    {sp : StdProb (Option K)} {status : Status} {sol : Sol (Option K)} (hs : W.m.SolvedBy H n (cmdFn cbc ps env d) sp status sol)
    {readNum : List Char → Option (Option K)} (hcmd : CorrectCommand env cbc readNum) {r : K → K} (hro : Rounding r)
    (hfmt : LpFmt readNum env.fmtE (Option.map r))
    (hnum : ∀ q, sp.prob.IsMilp q → q.PrintsExactly r ∧ q.nx ≤ 2 ^ 64 ∧ q.na ≤ 2 ^ 64) (hnames : env.tempIn ≠ env.tempOut)
    {σ : Env (Option K)} (hσ : W.m.Admissible σ) {w : K} (hw : W.m.minimised σ = some w) :
    (status = .solved → ∃ q ∈ sp.prob.views, q.Minimiser sol.x) ∧ status ≠ .infeasible := by
  classical
  obtain ⟨q, k, input, output, text, level, hsp, hq, htext, hread⟩ := cmd_run hs hnames
  obtain ⟨hex, hnx64, hna64⟩ := hnum q hq
  obtain ⟨hqv, hqnx, hqna, ⟨ys, hys⟩, text', file, htext', hlp, hb1, hb2, hb3, hfile⟩ := model_file hr hsp hro hfmt hq hex hσ hw
  rw [htext] at htext'
  injection htext' with htext'
  subst htext'
  -- values and points
  have hpoint : ∀ ts : List K, ts.length = q.base.nx → ∃ v : List Char → K, ∀ j < q.base.nx, ts[j]? = some (v (xName j)) := by
    intro ts hts
    refine ⟨fun x => if h : ∃ j, x = xName j then (ts[h.choose]?).getD 0 else 0, fun j hj => ?_⟩
    have hex : ∃ j', xName j = xName j' := ⟨j, rfl⟩
    have : hex.choose = j := (xName_inj.1 hex.choose_spec).symm
    simp only [dif_pos hex, this]
    rw [List.getElem?_eq_getElem (by omega)]
    rfl
  obtain ⟨hst1, hst2, -, -⟩ := C49_status hread
  have hout' : ∀ x, Option.bind ((env.command (if cbc then "cbc" else "clp") [input, "logLevel", toString level, "printingOptions", "all", "solve", "solution", output]
      (d.write input (fileOf text))).1 output) firstWord = some x → ∃ out,
      (env.command (if cbc then "cbc" else "clp") [input, "logLevel", toString level, "printingOptions", "all", "solve", "solution", output]
        (d.write input (fileOf text))).1 output = some out ∧ firstWord out = some x ∧ CorrectOutput env.parseF cbc file out := by
    intro x hx
    rw [Option.bind_eq_some_iff] at hx
    obtain ⟨out, ho, hx⟩ := hx
    exact ⟨out, ho, hx, hcmd input output (toString level) (d.write input (fileOf text)) text file out (by simp [Dir.write]) hlp ho⟩
  constructor
  · intro hsolved
    obtain ⟨out, ho, hfw, hcor⟩ := hout' _ (hst1.1 hsolved)
    obtain ⟨first, objective, lines, es, v, hout_eq, hlines, hnd, hin', hval, hzero, hbest⟩ := hcor.solved hfw
    have hfirst : (words first).head? = some (optimalWord cbc) := by
      rw [hout_eq] at hfw
      simpa [firstWord] using hfw
    have hrange : ∀ e ∈ es, e.inRange q.nx q.na := by
      intro e he
      have := hin' e he
      cases e with
      | col j a b =>
        obtain ⟨e', he', hn⟩ := this
        obtain ⟨j', hj', hn'⟩ := hb2 e' he'
        rw [hn] at hn'
        have : j = j' := xName_inj.1 hn'
        subst this
        show j < q.nx
        rw [hqnx]; exact hj'
      | row i a b =>
        obtain ⟨e', he', hn⟩ := this
        obtain ⟨j', hj', hn'⟩ := hb3 e' he'
        rw [hn] at hn'
        have : i = j' := cName_inj.1 hn'
        subst this
        show i < q.na
        rw [← hqna]; exact hj'
    obtain ⟨sol', hread', hl1, -, -, -, -, hcol, hnocol, -, -⟩ :=
      C47_solution (parseF := env.parseF) (objective := objective) (q := q) hfirst hlines hnd hrange hnx64 hna64
    rw [ho, hout_eq, hread'] at hread
    simp only [Except.ok.injEq, Option.some.injEq, Prod.mk.injEq] at hread
    obtain ⟨-, rfl⟩ := hread
    have hx : ∀ j < q.base.nx, sol'.x[j]? = some (some (v (xName j))) := by
      intro j hj
      by_cases hm : ∃ a b, Listed.col j a b ∈ es
      · obtain ⟨a, b, hm⟩ := hm
        rw [(hcol j a b hm).1]
        have := hval _ hm
        simp only [Listed.value] at this
        rw [this]
        rfl
      · rw [(hnocol j (by rw [hqnx]; exact hj) fun a b hm' => hm ⟨a, b, hm'⟩).1]
        obtain ⟨b, hb, hbn⟩ := hb1 j hj
        have := hzero b hb (fun e he hne => by
          cases e with
          | col j' a b =>
            rw [hbn] at hne
            have : j' = j := xName_inj.1 hne
            subst this
            exact hm ⟨_, _, he⟩
          | row i a b =>
            rw [hbn] at hne
            simp [Listed.name, xName] at hne)
        rw [hbn] at this
        rw [this]
        rfl
    have hts : sol'.x = ((List.range q.base.nx).map fun j => v (xName j)).map some := by
      refine List.ext_getElem? fun j => ?_
      by_cases hj : j < q.base.nx
      · rw [hx j hj]
        simp [List.getElem?_range hj]
      · rw [List.getElem?_eq_none (by rw [hl1, hqnx]; omega)]
        symm
        rw [List.getElem?_eq_none (by simp; omega)]
    have hv := hfile v ((List.range q.base.nx).map fun j => v (xName j)) (by simp) (fun j hj => by simp [List.getElem?_range hj])
    rw [← hts] at hv
    obtain ⟨hsat, o, ho1, ho2⟩ := hv
    obtain ⟨a, ha, hle⟩ := hbest.best
    refine ⟨q.base, hqv, hsat.1 hbest.sat, a, ?_, ?_⟩
    · rw [ha] at ho1
      injection ho1 with ho1
      rw [ho2, ho1]
    · intro zs hzs b hb
      obtain ⟨ts, rfl⟩ : ∃ ts : List K, zs = ts.map some := by
        refine ⟨zs.map (·.getD 0), ?_⟩
        rw [List.map_map]
        refine (List.map_id _).symm.trans (List.map_congr_left fun x hx => ?_)
        obtain ⟨i, hi, hxi⟩ := List.getElem_of_mem hx
        obtain ⟨t, _, _, rfl, -⟩ := hzs.bounds i x (by rw [List.getElem?_eq_getElem hi, hxi])
        rfl
      have htl : ts.length = q.base.nx := by simpa using hzs.len
      obtain ⟨v', hv'⟩ := hpoint ts htl
      obtain ⟨hsat', o', ho1', ho2'⟩ := hfile v' ts htl hv'
      rw [ho2'] at hb
      simp only [Option.some.injEq] at hb
      subst hb
      exact hle v' _ (hsat'.2 hzs) ho1'
  · intro hinf
    obtain ⟨out, -, hfw, hcor⟩ := hout' _ (hst2.1 hinf)
    have htl : ys.length = q.base.nx := by simpa using hys.len
    obtain ⟨v, hv⟩ := hpoint ys htl
    exact hcor.infeasible hfw v ((hfile v ys htl hv).1.2 hys)

/-- C57: a model is solved through files by Clp or Cbc, with an external command that solves the problem of its input file correctly.
If `solve` succeeds and reports `Solved`, then the final primals satisfy the constraints and integrality, and their objective value is
at least as good as that of every assignment that satisfies the constraints and integrality, stays in the box of ±1e8 and gives the objective a
value. The numbers of the problem must survive printing (eleven digits). -/
theorem C57_optimal (hr : ReachableApiW H W n) {cbc : Bool} {ps : Params (Option K)} {env : CmdEnv (Option K)} {d : Dir}
    {mod' : Model (Option K)} (h : W.m.solve H (cmdFn cbc ps env d) n = .ok ((.ok (), mod'), m)) (hst : mod'.solverStatus = some .solved)
    {readNum : List Char → Option (Option K)} (hcmd : CorrectCommand env cbc readNum) {r : K → K} (hro : Rounding r)
    (hfmt : LpFmt readNum env.fmtE (Option.map r))
    (hnum : ∀ sp m q, W.m.stdProblem H n = .ok (sp, m) → sp.prob.IsMilp q → q.PrintsExactly r ∧ q.nx ≤ 2 ^ 64 ∧ q.na ≤ 2 ^ 64)
    (hnames : env.tempIn ≠ env.tempOut) {σ : Env (Option K)} (hσ : W.m.Admissible σ) {w : K} (hw : W.m.minimised σ = some w) :
    (∀ c ∈ mod'.constraints, c.violation (mapEnv mod'.finalPrimals) = some 0 ∧ c.Holds (mapEnv mod'.finalPrimals)) ∧
    (∀ x, mod'.HasVar x → x.isInteger = true → ∃ z : ℤ, getN mod'.finalPrimals x = some (some (z : K))) ∧
    (∀ f, mod'.objective = .minimize f → ∃ v, f.evaluate (mapEnv mod'.finalPrimals) = some v ∧
      ∀ τ, W.m.Admissible τ → ∀ w, f.evaluate τ = some w → v ≤ w) ∧
    (∀ f, mod'.objective = .maximize f → ∃ v, f.evaluate (mapEnv mod'.finalPrimals) = some v ∧
      ∀ τ, W.m.Admissible τ → ∀ w, f.evaluate τ = some w → w ≤ v) := by
  have key : ∀ sp status sol, W.m.SolvedBy H n (cmdFn cbc ps env d) sp status sol → ∃ q ∈ sp.prob.views, q.Minimiser sol.x := by
    intro sp status sol hs
    have hstat := solvedBy_unique h hs
    rw [hst] at hstat
    injection hstat with hstat
    obtain ⟨k, hsp, hsol⟩ := id hs
    exact (cmd_answer hr hs hcmd hro hfmt (fun q hq => hnum sp k q hsp hq) hnames hσ hw).1 hstat.symm
  obtain ⟨h1, h2, h3, h4⟩ := C34_optimal hr h key hσ
  obtain ⟨hobj', -, -⟩ := (C30_call h).1
  refine ⟨h1, h2, ?_, ?_⟩
  · intro f hf
    have hfσ : f.evaluate σ = some w := by
      rw [hobj'] at hf
      simpa [Model.minimised, hf] using hw
    obtain ⟨v, hv, -⟩ := h3 f w hf hfσ
    refine ⟨v, hv, fun τ hτ w' hw' => ?_⟩
    obtain ⟨v', hv', hle⟩ := (C34_optimal hr h key hτ).2.2.1 f w' hf hw'
    rw [hv] at hv'
    injection hv' with hv'
    rw [hv']; exact hle
  · intro f hf
    obtain ⟨u, hfσ⟩ : ∃ u, f.evaluate σ = some u := by
      rw [hobj'] at hf
      simp only [Model.minimised, hf] at hw
      cases hfe : f.evaluate σ with
      | none => rw [hfe] at hw; simp at hw
      | some u => exact ⟨u, rfl⟩
    obtain ⟨v, hv, -⟩ := h4 f u hf hfσ
    refine ⟨v, hv, fun τ hτ w' hw' => ?_⟩
    obtain ⟨v', hv', hle⟩ := (C34_optimal hr h key hτ).2.2.2 f w' hf hw'
    rw [hv] at hv'
    injection hv' with hv'
    rw [hv']; exact hle

/-- C57: if `solve` succeeds and reports `Infeasible`, no assignment satisfies the constraints and integrality within the box and gives the
objective a value. -/
theorem C57_infeasible (hr : ReachableApiW H W n) {cbc : Bool} {ps : Params (Option K)} {env : CmdEnv (Option K)} {d : Dir}
    {mod' : Model (Option K)} (h : W.m.solve H (cmdFn cbc ps env d) n = .ok ((.ok (), mod'), m)) (hst : mod'.solverStatus = some .infeasible)
    {readNum : List Char → Option (Option K)} (hcmd : CorrectCommand env cbc readNum) {r : K → K} (hro : Rounding r)
    (hfmt : LpFmt readNum env.fmtE (Option.map r))
    (hnum : ∀ sp m q, W.m.stdProblem H n = .ok (sp, m) → sp.prob.IsMilp q → q.PrintsExactly r ∧ q.nx ≤ 2 ^ 64 ∧ q.na ≤ 2 ^ 64)
    (hnames : env.tempIn ≠ env.tempOut) (σ : Env (Option K)) (w : K) : ¬ (W.m.Admissible σ ∧ W.m.minimised σ = some w) := by
  rintro ⟨hσ, hw⟩
  obtain ⟨-, -, sp, k, hsp, hcase⟩ := C30_call h
  rcases hcase with ⟨e, he, -⟩ | ⟨status, sol, -, hs, hstat⟩
  · cases he
  · rw [hst] at hstat
    injection hstat with hstat
    exact (cmd_answer hr ⟨k, hsp, hs⟩ hcmd hro hfmt (fun q hq => hnum sp k q hsp hq) hnames hσ hw).2 hstat.symm

end

/-! ## Concrete case -/

theorem words_linesFrom (text : List Char) : ∀ cur : List Char,
    words (cur ++ text) = (linesFrom cur text).flatMap words := by
  induction text with
  | nil =>
    intro cur
    cases cur with
    | nil => rfl
    | cons a l => simp [linesFrom]
  | cons c cs ih =>
    intro cur
    by_cases hc : c = '\n'
    · subst hc
      rw [words_blank isBlank_nl]
      have := ih []
      simp only [List.nil_append] at this
      simp [linesFrom, this]
    · have := ih (cur ++ [c])
      have hc' : (c == '\n') = false := by simpa using hc
      simp only [List.append_assoc, List.singleton_append] at this
      simp [linesFrom, hc', this]

/-- What a text says depends on the lines of its file only. -/
theorem readLp_file {F : Type} [FloatOps F] {readNum : List Char → Option F} {s t : List Char} (h : fileOf s = fileOf t) :
    readLp readNum s = readLp readNum t := by
  have hl : linesFrom [] s = linesFrom [] t := by
    have hinj : Function.Injective (some : List Char → Option (List Char)) := Option.some_injective _
    exact List.map_injective_iff.2 hinj h
  have : words s = words t := by
    have h1 := words_linesFrom s []
    have h2 := words_linesFrom t []
    simp only [List.nil_append] at h1 h2
    rw [h1, h2, hl]
  unfold readLp
  rw [this]

/-- The LP file of the model `minimize x subject to x >= 2, x <= 5`. -/
def exLpText : List Char :=
  "Minimize\n obj:\n     + x_0\nSubject to\nBounds\n +2/1 <= x_0 <= +5/1\nGeneral\nEnd\n".toList

/-- The report about it. -/
def exLpOut : FileData := fileOf "optimal\nobjective value 2\n 0 x_0 2 1\n".toList

/-- A command that can solve one problem, and otherwise leaves no output file. -/
def exCmdEnv : CmdEnv Q :=
  { exEnv with command := fun _ args d => match args with
      | [input, _, _, _, _, _, _, output] => if d input = some (fileOf exLpText) then (d.write output exLpOut, true) else (d.remove output, true)
      | _ => (d, true) }

deriving instance DecidableEq for LpContent

theorem exCmd_correct : CorrectCommand exCmdEnv false readQ := by
  intro input output level d text file out hin hlp hout
  simp only [exCmdEnv] at hout
  split at hout
  · rename_i he
    rw [hin] at he
    injection he with he
    rw [readLp_file he] at hlp
    have hf : readLp readQ exLpText = some ⟨[(some 1, xName 0)], [], [(some 2, xName 0, some 5)], []⟩ := by decide +kernel
    rw [hf] at hlp
    injection hlp with hlp
    subst hlp
    simp only [Dir.write, if_true, Option.some.injEq] at hout
    subst hout
    refine ⟨fun _ => ⟨"optimal".toList, "objective value 2".toList, [" 0 x_0 2 1".toList], [.col 0 (some 2) (some 1)], fun _ => 2, by decide +kernel, ?_,
      by simp, ?_, ?_, ?_, ?_⟩, fun h => ?_⟩
    · refine List.Forall₂.cons ⟨['0'], ['2'], ['1'], [], by decide +kernel, by decide +kernel, by decide +kernel⟩ List.Forall₂.nil
    · intro e he
      simp only [List.mem_singleton] at he
      subst he
      exact ⟨_, List.mem_singleton.2 rfl, rfl⟩
    · intro e he
      simp only [List.mem_singleton] at he
      subst he
      rfl
    · intro b hb hno
      simp only [List.mem_singleton] at hb
      subst hb
      exact absurd rfl (hno _ (List.mem_singleton.2 rfl))
    · refine ⟨⟨by simp, ?_, by simp⟩, 2, ?_, ?_⟩
      · intro b hb
        simp only [List.mem_singleton] at hb
        subst hb
        exact ⟨2, 5, rfl, rfl, by norm_num, by norm_num⟩
      · simp [termsValue, total]
      · intro v' b hv' hb
        simp only [termsValue, List.map_cons, List.map_nil, total, List.foldl_nil, mul_some, one_mul, Option.some.injEq] at hb
        obtain ⟨lo, hi, h1, h2, h3, h4⟩ := hv'.bounds _ (List.mem_singleton.2 rfl)
        simp only [Option.some.injEq] at h1 h3
        rw [← hb]
        linarith
    · exfalso
      revert h
      decide +kernel
  · simp [Dir.remove] at hout

/-- Non-vacuity of C57: the model `minimize x subject to x >= 2, x <= 5`, solved by Clp with the command above: `solve` succeeds, the status is
`Solved`, all hypotheses of the theorem are met, and `x = 3` is admissible with the value 3. -/
example : ∃ mod' m, (worldOf exLp).m.solve HashOrder.listOrder (cmdFn false clpParams exCmdEnv fun _ => none) (wcount exLp) = .ok ((.ok (), mod'), m) ∧
    mod'.solverStatus = some .solved ∧ mod'.finalPrimals.map Prod.snd = [some 2] ∧
    ReachableApiW HashOrder.listOrder (worldOf exLp) (wcount exLp) ∧ CorrectCommand exCmdEnv false readQ ∧ Rounding (id : ℚ → ℚ) ∧
    LpFmt readQ exCmdEnv.fmtE (Option.map id) ∧
    (∀ sp m q, (worldOf exLp).m.stdProblem HashOrder.listOrder (wcount exLp) = .ok (sp, m) → sp.prob.IsMilp q →
      q.PrintsExactly id ∧ q.nx ≤ 2 ^ 64 ∧ q.na ≤ 2 ^ 64) ∧
    exCmdEnv.tempIn ≠ exCmdEnv.tempOut ∧ (worldOf exLp).m.minimised (envOf [(0, 3)]) = some 3 := by
  have hsolve : ((worldOf exLp).m.solve HashOrder.listOrder (cmdFn false clpParams exCmdEnv fun _ => none) (wcount exLp)).toOption.map
      (fun r => (r.1.1.toOption, r.1.2.solverStatus, r.1.2.finalPrimals.map Prod.snd)) = some (some (), some .solved, [some 2]) := by
    decide +kernel
  cases hs : (worldOf exLp).m.solve HashOrder.listOrder (cmdFn false clpParams exCmdEnv fun _ => none) (wcount exLp) with
  | error e => rw [hs] at hsolve; simp [Except.toOption] at hsolve
  | ok r =>
    obtain ⟨⟨res, mod'⟩, m⟩ := r
    rw [hs] at hsolve
    simp only [Except.toOption, Option.map_some, Option.some.injEq, Prod.mk.injEq] at hsolve
    obtain ⟨h1, h2, h3⟩ := hsolve
    cases res with
    | error e => simp at h1
    | ok u =>
      refine ⟨mod', m, rfl, h2, h3, runsW_reachable (by decide +kernel) (by decide +kernel), exCmd_correct,
        ⟨rfl, rfl, fun _ => rfl⟩, fmtQ_ok, ?_, by decide, by decide +kernel⟩
      intro sp m q hsp hq
      have hsize : (resultOf ((worldOf exLp).m.stdProblem HashOrder.listOrder) (wcount exLp)).bind
          (fun sp => match sp.prob with | .lp p => some (p.baseMilp.nx, p.baseMilp.na) | _ => none) = some (1, 0) := by decide +kernel
      simp only [resultOf, hsp, Option.bind_some] at hsize
      refine ⟨⟨fun _ _ => rfl, fun _ _ _ _ => rfl, fun _ _ => rfl, fun _ _ => rfl, fun _ _ => rfl⟩, ?_⟩
      rcases hq with hq | ⟨q', hq, rfl⟩ <;> rw [hq] at hsize <;> simp at hsize
      rw [hsize.1, hsize.2]
      norm_num

/-- `x = 3` is admissible. -/
theorem exLp_admissible : (worldOf exLp).m.Admissible (envOf [(0, 3)]) := by
  have hr : ReachableApiW HashOrder.listOrder (worldOf exLp) (wcount exLp) := runsW_reachable (by decide +kernel) (by decide +kernel)
  obtain ⟨sp, m, q, h1, h2, h3⟩ := viewOf_feas (cmds := exLp) (xs := [some 2]) (by decide +kernel)
  have hv2i : sp.var2index = [(.var 0 "x" .continuous, 0)] := by
    have : (resultOf ((worldOf exLp).m.stdProblem HashOrder.listOrder) (wcount exLp)).map (·.var2index) =
      some [(.var 0 "x" .continuous, 0)] := by decide +kernel
    simpa [resultOf, h1] using this
  have hvar : ∀ x, (worldOf exLp).m.HasVar x → x = .var 0 "x" .continuous := by
    intro x hx
    obtain ⟨-, i, hi⟩ := (C22_variables hr.reachable h1 neg_one_ne x).1 hx
    rw [hv2i] at hi
    simp only [List.mem_singleton, Prod.mk.injEq] at hi
    exact hi.1
  refine ⟨fun c hc => holdsCheck_sound ?_, fun x hx hi => ?_, fun x hx => ?_, fun c hc _ _ a b ha hb => ?_⟩
  · revert c; decide +kernel
  · rw [hvar x hx] at hi; simp [Node.isInteger] at hi
  · rw [hvar x hx]
    exact ⟨3, by decide +kernel, by norm_num, by norm_num⟩
  · have : ∀ c ∈ (worldOf exLp).m.constraints, (c.lhs.evaluate (envOf [(0, 3)]) = some 3) ∧
      (c.rhs.evaluate (envOf [(0, 3)]) = some 2 ∨ c.rhs.evaluate (envOf [(0, 3)]) = some 5) := by decide +kernel
    obtain ⟨e1, e2⟩ := this c hc
    rw [ha] at e1
    rw [hb] at e2
    simp only [Option.some.injEq] at e1 e2
    subst e1
    rcases e2 with rfl | rfl <;> norm_num

end Verif
