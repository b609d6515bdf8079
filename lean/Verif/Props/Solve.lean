import Verif.Proofs.Solve

/-! # Properties C30 - C34: what `solve` reports -/

namespace Verif

set_option linter.unusedSectionVars false
set_option linter.unusedSimpArgs false

section
variable {F : Type} [FloatOps F] {H : HashOrder} {W W' : World F} {n m : Nat}

/-! ## C30 no stale results -/

/-- Two models report the same results. -/
def Model.SameResults (a b : Model F) : Prop :=
  a.solverStatus = b.solverStatus ∧ a.finalPrimals = b.finalPrimals ∧ a.finalDuals = b.finalDuals

theorem Cmd.keeps_results {cmd : Cmd F} (h : cmd.exec H W n = .ok (W', m)) (hc : cmd.endsResult = false) :
    W'.result = W.result ∧ W'.m.SameResults W.m := by
  unfold Model.SameResults
  cases cmd <;> simp only [Cmd.endsResult, Bool.true_eq_false] at hc <;> simp only [Cmd.exec] at h
  case cmpNodeNode k i j tag =>
    cases hi : W.regs[i]? <;> cases hj : W.regs[j]? <;> simp only [hi, hj, M.bind_ok, M.pure_ok] at h
    case some.some => obtain ⟨_, _, -, rfl, rfl⟩ := h; exact ⟨rfl, rfl, rfl, rfl⟩
    all_goals (obtain ⟨rfl, rfl⟩ := h; exact ⟨rfl, rfl, rfl, rfl⟩)
  case cmpNodeScalar k i v tag =>
    cases hi : W.regs[i]? <;> simp only [hi, M.bind_ok, M.pure_ok] at h
    case some => obtain ⟨_, _, -, rfl, rfl⟩ := h; exact ⟨rfl, rfl, rfl, rfl⟩
    all_goals (obtain ⟨rfl, rfl⟩ := h; exact ⟨rfl, rfl, rfl, rfl⟩)
  case cmpScalarNode k v i tag =>
    cases hi : W.regs[i]? <;> simp only [hi, M.bind_ok, M.pure_ok] at h
    case some => obtain ⟨_, _, -, rfl, rfl⟩ := h; exact ⟨rfl, rfl, rfl, rfl⟩
    all_goals (obtain ⟨rfl, rfl⟩ := h; exact ⟨rfl, rfl, rfl, rfl⟩)
  case stdComponents i =>
    cases hi : W.regs[i]? <;> simp only [hi, M.bind_ok, M.pure_ok] at h
    case some => obtain ⟨_, _, -, rfl, rfl⟩ := h; exact ⟨rfl, rfl, rfl, rfl⟩
    all_goals (obtain ⟨rfl, rfl⟩ := h; exact ⟨rfl, rfl, rfl, rfl⟩)
  case minimize i =>
    cases hi : W.regs[i]? <;> simp only [hi, M.pure_ok] at h <;> obtain ⟨rfl, rfl⟩ := h <;> exact ⟨rfl, rfl, rfl, rfl⟩
  case maximize i =>
    cases hi : W.regs[i]? <;> simp only [hi, M.pure_ok] at h <;> obtain ⟨rfl, rfl⟩ := h <;> exact ⟨rfl, rfl, rfl, rfl⟩
  case addConstraint i =>
    cases hi : W.cs[i]? <;> simp only [hi, M.pure_ok] at h <;> obtain ⟨rfl, rfl⟩ := h <;> exact ⟨rfl, rfl, rfl, rfl⟩
  case setInitPrimals vals =>
    simp only [M.bind_ok, M.pure_ok, Model.setInitPrimals] at h
    obtain ⟨_, _, ⟨_, _, -, rfl, rfl⟩, rfl, rfl⟩ := h; exact ⟨rfl, rfl, rfl, rfl⟩
  case expr op =>
    simp only [M.bind_ok, M.pure_ok] at h
    obtain ⟨_, _, -, rfl, rfl⟩ := h; exact ⟨rfl, rfl, rfl, rfl⟩
  case stdProblem =>
    simp only [M.bind_ok, M.pure_ok] at h
    obtain ⟨_, _, -, rfl, rfl⟩ := h; exact ⟨rfl, rfl, rfl, rfl⟩
  case noObjective => simp only [M.pure_ok] at h; obtain ⟨rfl, rfl⟩ := h; exact ⟨rfl, rfl, rfl, rfl⟩
  case addConstraints is => simp only [M.pure_ok] at h; obtain ⟨rfl, rfl⟩ := h; exact ⟨rfl, rfl, rfl, rfl⟩

theorem runCmds_results {cmds : List (Cmd F)} (h : runCmds H W cmds n = .ok (W', m)) (hc : ∀ c ∈ cmds, c.endsResult = false) :
    W'.result = W.result ∧ W'.m.SameResults W.m := by
  induction cmds generalizing W n with
  | nil =>
    simp only [runCmds, M.pure_ok] at h
    rw [h.1]; exact ⟨rfl, rfl, rfl, rfl⟩
  | cons c cs ih =>
    simp only [runCmds, M.bind_ok] at h
    obtain ⟨W1, k, h1, h2⟩ := h
    obtain ⟨a1, a2, a3, a4⟩ := ih h2 fun c hc' => hc c (by simp [hc'])
    obtain ⟨b1, b2, b3, b4⟩ := c.keeps_results h1 (hc c (by simp))
    exact ⟨a1.trans b1, a2.trans b2, a3.trans b3, a4.trans b4⟩

/-- C30, one call: a `solve` that returns an error leaves the model without results, and one that returns `Ok` with the status that
the solver returned; in both cases objective, constraints and initial values are what they were, and the outcome does not depend
on the results of earlier calls. -/
theorem C30_call {mod : Model F} {solver : SolverFn F} {r : Except String Unit} {mod' : Model F}
    (h : mod.solve H solver n = .ok ((r, mod'), m)) :
    (mod'.objective = mod.objective ∧ mod'.constraints = mod.constraints ∧ mod'.initPrimals = mod.initPrimals) ∧
    (∀ old : Model F, old.objective = mod.objective → old.constraints = mod.constraints → old.initPrimals = mod.initPrimals →
      old.solve H solver n = .ok ((r, mod'), m)) ∧
    ∃ sp k, mod.stdProblem H n = .ok (sp, k) ∧
      ((∃ e, r = .error e ∧ solver sp.prob = .ok (.error e) ∧
          mod'.solverStatus = none ∧ mod'.finalPrimals = [] ∧ mod'.finalDuals = []) ∨
       (∃ status sol, r = .ok () ∧ solver sp.prob = .ok (.ok (status, sol)) ∧ mod'.solverStatus = some status)) := by
  refine ⟨?_, ?_, ?_⟩
  · obtain ⟨sp, k, -, -, hs⟩ := solve_ok h
    rcases hs with ⟨e, -, he⟩ | ⟨status, sol, primals, duals, -, -, he⟩ <;> cases he <;> exact ⟨rfl, rfl, rfl⟩
  · intro old h1 h2 h3
    rw [← h]
    unfold Model.solve
    rw [h1, h2, h3]
  · obtain ⟨sp, k, hsp, -, hs⟩ := solve_ok h
    refine ⟨sp, k, hsp, ?_⟩
    rcases hs with ⟨e, hsol, he⟩ | ⟨status, sol, primals, duals, hsol, -, he⟩ <;> cases he
    · exact .inl ⟨e, rfl, hsol, rfl, rfl, rfl⟩
    · exact .inr ⟨status, sol, rfl, hsol, rfl⟩

/-- C30, any history: if the last call of `solve` on the model returned an error, or there was none, the model reports nothing. -/
theorem C30_nothing (hr : ReachableW H W n) (h : W.result = none ∨ ∃ e, W.result = some (.error e)) :
    W.m.solverStatus = none ∧ W.m.finalPrimals = [] ∧ W.m.finalDuals = [] := by
  obtain ⟨cmds, hrun⟩ := hr
  have key : ∀ (cmds : List (Cmd F)) (W W' : World F) (n m : Nat), runCmds H W cmds n = .ok (W', m) →
      ((W.result = none ∨ ∃ e, W.result = some (.error e)) →
        W.m.solverStatus = none ∧ W.m.finalPrimals = [] ∧ W.m.finalDuals = []) →
      (W'.result = none ∨ ∃ e, W'.result = some (.error e)) →
        W'.m.solverStatus = none ∧ W'.m.finalPrimals = [] ∧ W'.m.finalDuals = [] := by
    intro cmds
    induction cmds with
    | nil =>
      intro W W' n m h hi
      simp only [runCmds, M.pure_ok] at h
      rw [h.1]; exact hi
    | cons c cs ih =>
      intro W W' n m h hi
      simp only [runCmds, M.bind_ok] at h
      obtain ⟨W1, k, h1, h2⟩ := h
      refine ih W1 W' k m h2 ?_
      by_cases hc : c.endsResult = false
      · obtain ⟨b1, b2, b3, b4⟩ := c.keeps_results h1 hc
        rw [b1, b2, b3, b4]; exact hi
      · cases c <;> simp [Cmd.endsResult] at hc <;> simp only [Cmd.exec] at h1
        · simp only [M.pure_ok] at h1
          obtain ⟨rfl, rfl⟩ := h1
          exact fun _ => ⟨rfl, rfl, rfl⟩
        · simp only [M.bind_ok, M.pure_ok] at h1
          obtain ⟨⟨r, mod'⟩, k2, hs, rfl, rfl⟩ := h1
          obtain ⟨-, -, sp, k, -, hs⟩ := C30_call hs
          rcases hs with ⟨e, rfl, -, h3⟩ | ⟨status, sol, rfl, -⟩
          · exact fun _ => h3
          · simp
  exact key cmds _ _ _ _ hrun (fun _ => ⟨rfl, rfl, rfl⟩) h

/-- C30, any history: after a program whose last `solve` (on the current model) was the one shown, the results reported are those of
that call, whatever was called before and after. -/
theorem C30_last {pre post : List (Cmd F)} {solver : SolverFn F}
    (hrun : runCmds H World.start (pre ++ .solve solver :: post) 0 = .ok (W, n)) (hpost : ∀ c ∈ post, c.endsResult = false) :
    ∃ W0 k r mod' k', runCmds H World.start pre 0 = .ok (W0, k) ∧ W0.m.solve H solver k = .ok ((r, mod'), k') ∧
      W.result = some r ∧ W.m.SameResults mod' := by
  rw [runCmds_append] at hrun
  obtain ⟨W0, k, hr0, hr1⟩ := hrun
  simp only [runCmds, M.bind_ok] at hr1
  obtain ⟨W1, k1, hc, hr1⟩ := hr1
  simp only [Cmd.exec, M.bind_ok, M.pure_ok] at hc
  obtain ⟨⟨r, mod'⟩, k2, hs, rfl, rfl⟩ := hc
  obtain ⟨h1, h2⟩ := runCmds_results hr1 hpost
  exact ⟨W0, k, r, mod', k1, hr0, hs, h1, h2⟩

end

/-- A solver that always answers with the same status and solution. -/
def constSolver (st : Status) (sol : Sol Q) : SolverFn Q := fun _ => .ok (.ok (st, sol))

/-- A solver that always returns an error. -/
def failSolver : SolverFn Q := fun _ => .ok (.error "no")

/-- A solution of the example: `_s_a0_ = -1, _s_j0_ = 2, x = 1, y = 3`. -/
def exSol : Sol Q := ⟨[some (-1), some 2, some 1, some 3], [some 7], [some 8], [some 11, some 12, some 13, some 14],
  [some 21, some 22, some 23, some 24]⟩

/-- What the model of a program reports: status, primals, duals by name. -/
def reportOf (cmds : List (Cmd Q)) : Option Status × List (String × Q) × List (String × Q) :=
  ((worldOf cmds).m.solverStatus, (worldOf cmds).m.finalPrimals.map fun e => (e.1.name, e.2),
    (worldOf cmds).m.finalDuals.map fun e => (e.1.label, e.2))

/-- Non-vacuity of C30: the example, solved (with duals `mu = 11` of the slack of `a`, `pi = 22` of the slack of `b` and `mu = 14` of
the bound `c`), then solved again without success. -/
example : reportOf (exCmds ++ [.solve (constSolver .solved exSol)]) =
      (some .solved, [("_s_a0_", some (-1)), ("_s_j0_", some 2), ("x", some 1), ("y", some 3)],
        [("a", some 11), ("b", some 22), ("c", some 14)]) ∧
    reportOf (exCmds ++ [.solve (constSolver .solved exSol), .solve failSolver]) = (none, [], []) ∧
    ReachableW HashOrder.listOrder (worldOf (exCmds ++ [.solve (constSolver .solved exSol), .solve failSolver]))
      (wcount (exCmds ++ [.solve (constSolver .solved exSol), .solve failSolver])) :=
  ⟨by decide +kernel, by decide +kernel, (runsW_reachable (by decide +kernel) (by decide +kernel)).reachable⟩

section
variable {F : Type} [FloatOps F] {H : HashOrder} {W : World F} {n m : Nat}

/-! ## C31 primals -/

/-- C31: after a `solve` that returned `Ok` for a program's model, the solver was given the standard problem and its answer is what
the model reports: the final primals have exactly one entry per column, distinct ones, with the value of the column in the
solution; in particular every variable of the model has the value of its column. -/
theorem C31_primals (hr : ReachableW H W n) {solver : SolverFn F} {mod' : Model F} (h : W.m.solve H solver n = .ok ((.ok (), mod'), m)) :
    ∃ sp status sol, W.m.SolvedBy H n solver sp status sol ∧ mod'.solverStatus = some status ∧
      mod'.finalPrimals.length = sp.var2index.length ∧
      (mod'.finalPrimals.Pairwise fun p q => p.1.ptrEq q.1 = false) ∧
      (∀ x i, (x, i) ∈ sp.var2index → ∃ v, sol.x[i]? = some v ∧ getN mod'.finalPrimals x = some v) ∧
      ((negOne ==. (zero : F)) = false → ∀ x, W.m.HasVar x →
        ∃ i v, (x, i) ∈ sp.var2index ∧ sol.x[i]? = some v ∧ getN mod'.finalPrimals x = some v) := by
  obtain ⟨sp, k, hsp, -, hs⟩ := solve_ok h
  rcases hs with ⟨e, -, he⟩ | ⟨status, sol, primals, duals, hsol, hx, he⟩ <;> cases he
  obtain ⟨hp, k', comp, e, ps, cols, xes, ves, hf, -⟩ := hr.facts hsp
  obtain ⟨h1, h2, h3, h4⟩ := hx.primals hf
  have key : ∀ x i, (x, i) ∈ sp.var2index → ∃ v, sol.x[i]? = some v ∧ getN primals x = some v := by
    intro x i hxi
    obtain ⟨v, hv, hm⟩ := h4 x i hxi
    exact ⟨v, hv, getN_mem h1 hm⟩
  refine ⟨sp, status, sol, ⟨k, hsp, hsol⟩, rfl, h2, ?_, key, fun hneg x hxv => ?_⟩
  · have h1' : (primals.map Prod.fst).Pairwise fun x y => x.ptrEq y = false := h1
    rw [List.pairwise_map] at h1'
    exact h1'
  · obtain ⟨-, i, hi⟩ := (C22_variables hr hsp hneg x).1 hxv
    obtain ⟨v, h5, h6⟩ := key x i hi
    exact ⟨i, v, hi, h5, h6⟩

end

/-- Non-vacuity of C31: the solve of the example returns `Ok`, and `y` has the value of column 3. -/
example : (match (worldOf exCmds).m.solve HashOrder.listOrder (constSolver .solved exSol) (wcount exCmds) with
    | .ok ((.ok (), mod'), _) => (worldOf exCmds).regs[1]?.bind fun y => getN mod'.finalPrimals y
    | _ => none) = some (some 3) := by decide +kernel

/-! ## C32 duals -/

section
variable {K : Type} [Field K] [LinearOrder K] [IsStrictOrderedRing K] [Trig K]
variable {H : HashOrder} {W : World (Option K)} {n m : Nat}

/-- C32 (partial: an inequality that bounds a variable has a dual only if `std_problem` recorded it for the bound, which it does for
one of the tightest constraints, see `C32_tightest`): after a `solve` that returned `Ok`, an equality has the multiplier of its
linear or nonlinear row; an inequality `<=` has the upper bound multiplier of the column for which it is recorded (the slack of its
row or the variable it bounds), `>=` the lower bound multiplier; constraints that are not in the model have none. -/
theorem C32_duals_partial (hr : ReachableApiW H W n) {solver : SolverFn (Option K)} {mod' : Model (Option K)}
    (h : W.m.solve H solver n = .ok ((.ok (), mod'), m)) :
    ∃ sp status sol, W.m.SolvedBy H n solver sp status sol ∧
      (∀ c ∈ W.m.constraints, c.kind = .equal → ∃ k w, getC mod'.finalDuals c = some w ∧
        ((k, c) ∈ sp.aindex2constr ∧ sol.lam[k]? = some w ∨ (k, c) ∈ sp.jindex2constr ∧ sol.nu[k]? = some w)) ∧
      (∀ c ∈ W.m.constraints, c.kind = .lessEqual →
        (∃ i w, (i, c) ∈ sp.uindex2constr ∧ sol.mu[i]? = some w ∧ getC mod'.finalDuals c = some w) ∨
        ((∃ x v, c.Bounds x v) ∧ (∀ i, (i, c) ∉ sp.uindex2constr) ∧ getC mod'.finalDuals c = none)) ∧
      (∀ c ∈ W.m.constraints, c.kind = .greaterEqual →
        (∃ i w, (i, c) ∈ sp.lindex2constr ∧ sol.pi[i]? = some w ∧ getC mod'.finalDuals c = some w) ∨
        ((∃ x v, c.Bounds x v) ∧ (∀ i, (i, c) ∉ sp.lindex2constr) ∧ getC mod'.finalDuals c = none)) ∧
      (∀ c ∈ W.cs, c ∉ W.m.constraints → getC mod'.finalDuals c = none) := by
  obtain ⟨sp, k, hsp, -, hs⟩ := solve_ok h
  rcases hs with ⟨e, -, he⟩ | ⟨status, sol, primals, duals, hsol, hx, he⟩ <;> cases he
  obtain ⟨hp, k', comp, e, ps, cols, xes, ves, hf, -⟩ := hr.facts hsp
  obtain ⟨h0, hw⟩ := hr.inv
  have hinj : ∀ c ∈ W.cs, ∀ d ∈ W.cs, d.ptrEq c = true → d = c := by
    intro c hc d hd hdc
    simp only [Constraint.ptrEq, beq_iff_eq] at hdc
    by_contra hne
    have hsy : Std.Symm fun a b : Constraint (Option K) => a.id ≠ b.id := ⟨fun _ _ h => Ne.symm h⟩
    exact hw.csNd.forall hd hc hne hdc
  have hrow : ∀ {i c}, (i, c) ∈ sp.aindex2constr ∨ (i, c) ∈ sp.jindex2constr → c ∈ W.m.constraints := fun hc => hf.row_mem hc
  simp only at *
  refine ⟨sp, status, sol, ⟨k, hsp, hsol⟩, ?_, ?_, ?_, ?_⟩
  · intro c hc hk
    have hcs := hw.sub c hc
    rcases hx.dual c with ⟨⟨i, d⟩, he, h1, -⟩ | ⟨-, h4⟩
    · have h2 := hf.lidx_mem he
      have := hinj c hcs d (hw.sub d h2.1) h1
      rw [← this, h2.2] at hk; cases hk
    rcases h4 with ⟨⟨i, d⟩, he, h1, -⟩ | ⟨-, h4⟩
    · have h2 := hf.uidx_mem he
      have := hinj c hcs d (hw.sub d h2.1) h1
      rw [← this, h2.2] at hk; cases hk
    rcases h4 with ⟨⟨i, d⟩, he, h1, w, h2, h3⟩ | ⟨hj, h4⟩
    · have := hinj c hcs d (hw.sub d (hrow (.inr he))) h1
      subst this
      exact ⟨i, w, h3, .inr ⟨he, h2⟩⟩
    rcases h4 with ⟨⟨i, d⟩, he, h1, w, h2, h3⟩ | ⟨ha, h4⟩
    · have := hinj c hcs d (hw.sub d (hrow (.inl he))) h1
      subst this
      exact ⟨i, w, h3, .inl ⟨he, h2⟩⟩
    exfalso
    rcases hf.place hc with ⟨i, hi⟩ | ⟨i, hi⟩ | ⟨x, v, hb, -⟩
    · have := ha _ hi; simp [Constraint.ptrEq] at this
    · have := hj _ hi; simp [Constraint.ptrEq] at this
    · exact hb.1 hk
  · intro c hc hk
    have hcs := hw.sub c hc
    rcases hx.dual c with ⟨⟨i, d⟩, he, h1, -⟩ | ⟨-, h4⟩
    · have h2 := hf.lidx_mem he
      have := hinj c hcs d (hw.sub d h2.1) h1
      rw [← this, h2.2] at hk; cases hk
    rcases h4 with ⟨⟨i, d⟩, he, h1, w, h2, h3⟩ | ⟨hu, h4⟩
    · have h2' := hf.uidx_mem he
      have := hinj c hcs d (hw.sub d h2'.1) h1
      subst this
      exact .inl ⟨i, w, he, h2, h3⟩
    have hu' : ∀ i, (i, c) ∉ sp.uindex2constr := fun i hi => by have := hu _ hi; simp [Constraint.ptrEq] at this
    obtain ⟨q, hq⟩ : ∃ q, q ∈ sp.prob.views := by cases sp.prob <;> simp [Problem.views]
    have hna : ∀ i, (i, c) ∉ sp.aindex2constr ∧ (i, c) ∉ sp.jindex2constr := by
      intro i
      obtain ⟨s1, s2, -⟩ := C22_slacks hr.reachable hsp
      constructor
      · intro hi
        obtain ⟨s, ⟨hn, ⟨j, hj⟩, hname⟩, -⟩ := s1 i c hi (by rw [hk]; simp)
        have := ((C27_slack hr hsp hq hj hn (.inl ⟨hi, hname⟩)).1 hk).2.2.1
        exact hu' j ((this c).2 rfl)
      · intro hi
        obtain ⟨s, ⟨hn, ⟨j, hj⟩, hname⟩, -⟩ := s2 i c hi (by rw [hk]; simp)
        have := ((C27_slack hr hsp hq hj hn (.inr ⟨hi, hname⟩)).1 hk).2.2.1
        exact hu' j ((this c).2 rfl)
    rcases h4 with ⟨⟨i, d⟩, he, h1, -⟩ | ⟨-, h4⟩
    · have := hinj c hcs d (hw.sub d (hrow (.inr he))) h1
      subst this
      exact absurd he (hna i).2
    rcases h4 with ⟨⟨i, d⟩, he, h1, -⟩ | ⟨-, h4⟩
    · have := hinj c hcs d (hw.sub d (hrow (.inl he))) h1
      subst this
      exact absurd he (hna i).1
    refine .inr ⟨?_, hu', h4⟩
    rcases hf.place hc with ⟨i, hi⟩ | ⟨i, hi⟩ | ⟨x, v, hb, -⟩
    · exact absurd hi (hna i).1
    · exact absurd hi (hna i).2
    · exact ⟨x, v, hb⟩
  · intro c hc hk
    have hcs := hw.sub c hc
    rcases hx.dual c with ⟨⟨i, d⟩, he, h1, w, h2, h3⟩ | ⟨hu, h4⟩
    · have h2' := hf.lidx_mem he
      have := hinj c hcs d (hw.sub d h2'.1) h1
      subst this
      exact .inl ⟨i, w, he, h2, h3⟩
    rcases h4 with ⟨⟨i, d⟩, he, h1, -⟩ | ⟨-, h4⟩
    · have h2 := hf.uidx_mem he
      have := hinj c hcs d (hw.sub d h2.1) h1
      rw [← this, h2.2] at hk; cases hk
    have hu' : ∀ i, (i, c) ∉ sp.lindex2constr := fun i hi => by have := hu _ hi; simp [Constraint.ptrEq] at this
    obtain ⟨q, hq⟩ : ∃ q, q ∈ sp.prob.views := by cases sp.prob <;> simp [Problem.views]
    have hna : ∀ i, (i, c) ∉ sp.aindex2constr ∧ (i, c) ∉ sp.jindex2constr := by
      intro i
      obtain ⟨s1, s2, -⟩ := C22_slacks hr.reachable hsp
      constructor
      · intro hi
        obtain ⟨s, ⟨hn, ⟨j, hj⟩, hname⟩, -⟩ := s1 i c hi (by rw [hk]; simp)
        have := ((C27_slack hr hsp hq hj hn (.inl ⟨hi, hname⟩)).2 hk).2.2.1
        exact hu' j ((this c).2 rfl)
      · intro hi
        obtain ⟨s, ⟨hn, ⟨j, hj⟩, hname⟩, -⟩ := s2 i c hi (by rw [hk]; simp)
        have := ((C27_slack hr hsp hq hj hn (.inr ⟨hi, hname⟩)).2 hk).2.2.1
        exact hu' j ((this c).2 rfl)
    rcases h4 with ⟨⟨i, d⟩, he, h1, -⟩ | ⟨-, h4⟩
    · have := hinj c hcs d (hw.sub d (hrow (.inr he))) h1
      subst this
      exact absurd he (hna i).2
    rcases h4 with ⟨⟨i, d⟩, he, h1, -⟩ | ⟨-, h4⟩
    · have := hinj c hcs d (hw.sub d (hrow (.inl he))) h1
      subst this
      exact absurd he (hna i).1
    refine .inr ⟨?_, hu', h4⟩
    rcases hf.place hc with ⟨i, hi⟩ | ⟨i, hi⟩ | ⟨x, v, hb, -⟩
    · exact absurd hi (hna i).1
    · exact absurd hi (hna i).2
    · exact ⟨x, v, hb⟩
  · intro c hcs hc
    have hno : ∀ d, d ∈ W.m.constraints → d.ptrEq c = true → False := fun d hd h1 => hc (hinj c hcs d (hw.sub d hd) h1 ▸ hd)
    rcases hx.dual c with ⟨⟨i, d⟩, he, h1, -⟩ | ⟨-, ⟨⟨i, d⟩, he, h1, -⟩ | ⟨-, ⟨⟨i, d⟩, he, h1, -⟩ | ⟨-, ⟨⟨i, d⟩, he, h1, -⟩ | ⟨-, h4⟩⟩⟩⟩
    · exact (hno d (hf.lidx_mem he).1 h1).elim
    · exact (hno d (hf.uidx_mem he).1 h1).elim
    · exact (hno d (hrow (.inr he)) h1).elim
    · exact (hno d (hrow (.inl he)) h1).elim
    · exact h4

/-- C32: a constraint that bounds a variable strictly more than any other one in the same direction, by a value within the box, has
the multiplier of that bound. -/
theorem C32_tightest (hr : ReachableApiW H W n) {solver : SolverFn (Option K)} {mod' : Model (Option K)}
    (h : W.m.solve H solver n = .ok ((.ok (), mod'), m)) {c : Constraint (Option K)} (hc : c ∈ W.m.constraints)
    {x : Node (Option K)} {v : K} (hb : c.Bounds x (some v)) :
    ∃ sp status sol, W.m.SolvedBy H n solver sp status sol ∧
    (c.kind = .lessEqual → v ≤ 10 ^ 8 → (∀ d ∈ W.m.constraints, d.kind = .lessEqual → d ≠ c → ∀ w, d.Bounds x (some w) → v < w) →
      ∃ i w, (x, i) ∈ sp.var2index ∧ sol.mu[i]? = some w ∧ getC mod'.finalDuals c = some w) ∧
    (c.kind = .greaterEqual → -(10 ^ 8) ≤ v → (∀ d ∈ W.m.constraints, d.kind = .greaterEqual → d ≠ c → ∀ w, d.Bounds x (some w) → w < v) →
      ∃ i w, (x, i) ∈ sp.var2index ∧ sol.pi[i]? = some w ∧ getC mod'.finalDuals c = some w) := by
  obtain ⟨sp, status, sol, ⟨k, hsp, hsol⟩, -, hu, hl, -⟩ := C32_duals_partial hr h
  refine ⟨sp, status, sol, ⟨k, hsp, hsol⟩, ?_⟩
  obtain ⟨hp, k', comp, e, ps, cols, xes, ves, hf, -⟩ := hr.facts hsp
  obtain ⟨q, hq⟩ : ∃ q, q ∈ sp.prob.views := by cases sp.prob <;> simp [Problem.views]
  have hxx : ∃ i, (x, i) ∈ sp.var2index ∧ x.id < n := by
    obtain ⟨p, hpm, hpc⟩ : ∃ p ∈ ps, p.c = c := by rw [← hf.mf.cs] at hc; exact List.mem_map.1 hc
    obtain ⟨n', m', -, -, hok⟩ := hf.mf.piece hpm
    rcases hf.place hc with ⟨i, hi⟩ | ⟨i, hi⟩ | ⟨y, w, hy, hyn, hyc⟩
    · exfalso
      rw [hf.aindex] at hi
      obtain ⟨p', hp', he⟩ := List.mem_map.1 hi
      cases he
      obtain ⟨hp'', hl'⟩ := List.mem_filter.1 hp'
      obtain ⟨_, _, -, -, hok'⟩ := hf.mf.piece hp''
      have := (hok'.bounds_iff.1 hb).1
      simp [Piece.isLin, this] at hl'
    · exfalso
      rw [hf.jindex] at hi
      obtain ⟨p', hp', he⟩ := List.mem_map.1 hi
      cases he
      obtain ⟨hp'', hl'⟩ := List.mem_filter.1 hp'
      obtain ⟨_, _, -, -, hok'⟩ := hf.mf.piece hp''
      have := (hok'.bounds_iff.1 hb).1
      simp [Piece.isNl, this] at hl'
    · subst hpc
      have h1 := (hok.bounds_iff.1 hb).1
      have h2 := (hok.bounds_iff.1 hy).1
      rw [h1] at h2; injection h2 with h2
      subst h2
      obtain ⟨i, hi⟩ := List.mem_iff_getElem?.1 hyc
      exact ⟨i, hf.mem_v2i.2 hi, hyn⟩
  obtain ⟨i, hi, hxn⟩ := hxx
  have huniq : ∀ y j w, c.Bounds y w → (y, j) ∈ sp.var2index → j = i := by
    intro y j w hy hj
    obtain ⟨p, hpm, hpc⟩ : ∃ p ∈ ps, p.c = c := by rw [← hf.mf.cs] at hc; exact List.mem_map.1 hc
    obtain ⟨n', m', -, -, hok⟩ := hf.mf.piece hpm
    subst hpc
    have h1 := (hok.bounds_iff.1 hb).1
    have h2 := (hok.bounds_iff.1 hy).1
    rw [h1] at h2; injection h2 with h2
    subst h2
    exact ((C22_bijection hr.reachable hsp).2.2.1 x x j i hj hi).1 (ptrEq_refl x)
  have hold : ∀ j d, ((j, d) ∈ sp.uindex2constr ∨ (j, d) ∈ sp.lindex2constr) → d = c → j = i := by
    rintro j d hj rfl
    have hjl : j < sp.var2index.length := by
      rcases hj with hj | hj
      · rw [← getNat_mem hf.uidx.nodup, hf.uidx.get] at hj
        obtain ⟨y, hy, -⟩ := Option.bind_eq_some_iff.1 hj
        rw [hf.v2i, List.length_zipIdx]; exact (List.getElem?_eq_some_iff.1 hy).1
      · rw [← getNat_mem hf.lidx.nodup, hf.lidx.get] at hj
        obtain ⟨y, hy, -⟩ := Option.bind_eq_some_iff.1 hj
        rw [hf.v2i, List.length_zipIdx]; exact (List.getElem?_eq_some_iff.1 hy).1
    obtain ⟨y, hy⟩ := ((C22_bijection hr.reachable hsp).2.1 j).1 hjl
    by_cases hyn : y.id < n
    · rcases hj with hj | hj
      · obtain ⟨up, -, -, -, h4, -⟩ := C27_upper hr hsp hq hy hyn
        exact huniq y j _ (h4 _ hj).2.2 hy
      · obtain ⟨up, -, -, -, h4, -⟩ := C27_lower hr hsp hq hy hyn
        exact huniq y j _ (h4 _ hj).2.2 hy
    · exfalso
      obtain ⟨p, hp', hsl⟩ := hf.newCol.1 ⟨List.mem_of_getElem? (hf.mem_v2i.1 hy), by omega⟩
      have hpd : d = p.c := by
        obtain ⟨b1, b2⟩ := hf.bound_new hp' hsl (v := some 0) (c := d)
        rcases hj with hj | hj
        · rw [hf.uidx.mem (hf.mem_v2i.1 hy)] at hj
          obtain ⟨up, -, -, h3, -⟩ := tightest_up (K := K) (10 ^ 8) comp.constr.u y
          have hinf : (inf : Option K) = some (10 ^ 8) := by simp
          simp only [upT, hinf] at hj
          exact ((hf.bound_new hp' hsl (v := some up) (c := d)).1.1 (h3 d hj)).1
        · rw [hf.lidx.mem (hf.mem_v2i.1 hy)] at hj
          obtain ⟨up, -, -, h3, -⟩ := tightest_lo (K := K) (-(10 ^ 8)) comp.constr.l y
          have hinf : FloatOps.neg (inf : Option K) = some (-(10 ^ 8)) := by simp
          simp only [loT, hinf] at hj
          exact ((hf.bound_new hp' hsl (v := some up) (c := d)).2.1 (h3 d hj)).1
      subst hpd
      obtain ⟨n', m', -, -, hok⟩ := hf.mf.piece hp'
      have h1 := (hok.bounds_iff.1 hb).1
      simp [Piece.slack, h1] at hsl
  constructor
  · intro hk hv hall
    obtain ⟨up, -, h2, -, h4, h5⟩ := C27_upper hr hsp hq hi hxn
    have hrec : (i, c) ∈ sp.uindex2constr := by
      by_contra hno
      by_cases hex : ∃ d, (i, d) ∈ sp.uindex2constr
      · obtain ⟨d, hd⟩ := hex
        obtain ⟨d1, d2, d3⟩ := h4 d hd
        have hne : d ≠ c := fun he => hno (he ▸ hd)
        have h6 := hall d d1 d2 hne up d3
        have h7 := ((h2 up).1 (le_refl _)).2 c hc hk v hb
        exact absurd h6 (not_lt.2 h7)
      · exact absurd (h5 (fun d hd => hex ⟨d, hd⟩) c hc hk v hb) (not_lt.2 hv)
    rcases hu c hc hk with ⟨j, w, h1, h2, h3⟩ | ⟨-, hno, -⟩
    · have := hold j c (.inl h1) rfl
      subst this
      exact ⟨j, w, hi, h2, h3⟩
    · exact absurd hrec (hno i)
  · intro hk hv hall
    obtain ⟨up, -, h2, -, h4, h5⟩ := C27_lower hr hsp hq hi hxn
    have hrec : (i, c) ∈ sp.lindex2constr := by
      by_contra hno
      by_cases hex : ∃ d, (i, d) ∈ sp.lindex2constr
      · obtain ⟨d, hd⟩ := hex
        obtain ⟨d1, d2, d3⟩ := h4 d hd
        have hne : d ≠ c := fun he => hno (he ▸ hd)
        have h6 := hall d d1 d2 hne up d3
        have h7 := ((h2 up).1 (le_refl _)).2 c hc hk v hb
        exact absurd h6 (not_lt.2 h7)
      · exact absurd (h5 (fun d hd => hex ⟨d, hd⟩) c hc hk v hb) (not_lt.2 hv)
    rcases hl c hc hk with ⟨j, w, h1, h2, h3⟩ | ⟨-, hno, -⟩
    · have := hold j c (.inr h1) rfl
      subst this
      exact ⟨j, w, hi, h2, h3⟩
    · exact absurd hrec (hno i)

end

/-- C32 is false as stated: with the constraints `x <= 5` and `x <= 3` only the second one gets a dual. -/
theorem C32_dominated :
    let cmds : List (Cmd Q) := [.expr (.var "x" .continuous), .cmpNodeScalar .lessEqual 0 (some 5) "a",
      .cmpNodeScalar .lessEqual 0 (some 3) "b", .addConstraints [0, 1], .minimize 0,
      .solve (constSolver .solved ⟨[some 0], [], [], [some 1], [some 2]⟩)]
    ReachableApiW HashOrder.listOrder (worldOf cmds) (wcount cmds) ∧ (worldOf cmds).m.constraints.length = 2 ∧
    reportOf cmds = (some .solved, [("x", some 0)], [("b", some 1)]) := by
  refine ⟨runsW_reachable (by decide +kernel) (by decide +kernel), by decide +kernel, by decide +kernel⟩

/-- Non-vacuity of C32: in the example, solved, `c` bounds `y` and is the only such constraint; its dual is `mu[3] = 14`. -/
example : ((worldOf exCmds).m.constraints[2]?).map (fun c => (c.label, c.kind)) = some ("c", .lessEqual) ∧
    (((worldOf exCmds).m.constraints[2]?).bind fun c =>
      getC (worldOf (exCmds ++ [.solve (constSolver .solved exSol)])).m.finalDuals c) = some (some 14) := by
  constructor <;> decide +kernel

/-! ## C33 feasible answers, C34 optimal answers -/

section
variable {K : Type} [Field K] [LinearOrder K] [IsStrictOrderedRing K] [Trig K]
variable {H : HashOrder} {W : World (Option K)} {n m : Nat}

/-- C33: if every constraint of the model has a value somewhere and the solver answered with a point that is feasible for the
standard problem, then at the final primals every constraint of the model has violation 0 and holds, and every integer variable of
the model has an integer value. -/
theorem C33_feasible (hr : ReachableApiW H W n) {solver : SolverFn (Option K)} {mod' : Model (Option K)}
    (h : W.m.solve H solver n = .ok ((.ok (), mod'), m))
    (hd : ∀ c ∈ W.m.constraints, ∃ σ a b, c.lhs.evaluate σ = some a ∧ c.rhs.evaluate σ = some b)
    (hs : ∀ sp status sol, W.m.SolvedBy H n solver sp status sol → ∃ q ∈ sp.prob.views, q.Feasible sol.x) :
    (∀ c ∈ mod'.constraints, c.violation (mapEnv mod'.finalPrimals) = some 0 ∧ c.Holds (mapEnv mod'.finalPrimals)) ∧
    (∀ x, mod'.HasVar x → x.isInteger = true → ∃ z : ℤ, getN mod'.finalPrimals x = some (some (z : K))) := by
  obtain ⟨sp, k, hsp, -, hs'⟩ := solve_ok h
  rcases hs' with ⟨e, -, he⟩ | ⟨status, sol, primals, duals, hsol, hx, he⟩ <;> cases he
  obtain ⟨hp, k', comp, e, ps, cols, xes, ves, hf, -, -⟩ := hr.facts hsp
  obtain ⟨q, hq, hfeas⟩ := hs sp status sol ⟨k, hsp, hsol⟩
  rw [C25_feasible hr hsp hd hq] at hfeas
  obtain ⟨hlen, hbox, hh, hint, -⟩ := hfeas
  have henv : mapEnv primals = pointOf sp.var2index sol.x := by rw [hx.env hf, hf.v2i, pointOf_eq]
  simp only [henv]
  refine ⟨fun c hc => ?_, fun x hxv hi => ?_⟩
  · obtain ⟨a, b, ha, hb, hrel⟩ := hh c hc
    have hc' : c.Holds (pointOf sp.var2index sol.x) := ⟨a, b, ha, hb, hrel⟩
    exact ⟨(C18_zero_iff c _ ha hb).2 hc', hc'⟩
  · obtain ⟨z, hz⟩ := hint x hxv hi
    refine ⟨z, ?_⟩
    obtain ⟨h1, h2, h3, h4⟩ := hx.primals hf
    obtain ⟨-, i, hi⟩ := (C22_variables hr.reachable hsp neg_one_ne x).1 hxv
    obtain ⟨v, hv, hm⟩ := h4 x i hi
    rw [getN_mem h1 hm]
    rw [hf.v2i, pointOf_eq, evaluate_col hf.cok (List.mem_of_getElem? (hf.mem_v2i.1 hi))] at hz
    obtain ⟨hlt, hxi⟩ := List.getElem?_eq_some_iff.1 (hf.mem_v2i.1 hi)
    rw [← hxi, hf.cok.col_get hlt, hv] at hz
    simp only [Option.getD_some] at hz
    rw [hz]

/-- An admissible assignment gives a feasible point of the standard problem, with the same value of what is minimised. -/
theorem admissible_point (hr : ReachableApiW H W n) {sp : StdProb (Option K)} {k : Nat} (hsp : W.m.stdProblem H n = .ok (sp, k))
    {σ : Env (Option K)} (hσ : W.m.Admissible σ) {q : Minlp (Option K)} (hq : q ∈ sp.prob.views) :
    ∃ ys : List K, q.Feasible (ys.map some) ∧ ys.length = sp.var2index.length ∧
      W.m.minimised (pointOf sp.var2index (ys.map some)) = W.m.minimised σ := by
  classical
  obtain ⟨hp, k', comp, e, ps, cols, xes, ves, hf, -, -⟩ := hr.facts hsp
  -- the value of a column
  have hval : ∀ x ∈ cols, ∃ t : K, -(10 ^ 8) ≤ t ∧ t ≤ 10 ^ 8 ∧ (x.id < n → x.evaluate σ = some t) ∧
      ∀ p ∈ ps, p.slack = some x → p.c.residual σ = some t := by
    intro x hx
    by_cases hn : x.id < n
    · obtain ⟨t, h1, h2, h3⟩ := hσ.box x (hf.hasVar hx hn)
      refine ⟨t, h2, h3, fun _ => h1, fun p hp' hs => ?_⟩
      have := (hf.newCol.2 ⟨p, hp', hs⟩).2
      omega
    · obtain ⟨p, hp', hs⟩ := hf.newCol.1 ⟨hx, by omega⟩
      obtain ⟨n', m', -, -, hok⟩ := hf.mf.piece hp'
      have hc : p.c ∈ W.m.constraints := by rw [← hf.mf.cs]; exact List.mem_map.2 ⟨p, hp', rfl⟩
      obtain ⟨a, b, ha, hb, -⟩ := hσ.holds _ hc
      have hkind : p.c.kind ≠ .equal := by rw [Ne, hok.equal, Piece.bnd_slack hs]; simp
      have hnb : ∀ y v, ¬ p.c.Bounds y v := by
        intro y v hb'
        have h1 := (hok.bounds_iff.1 hb').1
        simp [Piece.slack, h1] at hs
      obtain ⟨h1, h2⟩ := hσ.slackBox _ hc hkind hnb a b ha hb
      refine ⟨a - b, h1, h2, fun h => absurd h hn, fun p' hp'' hs' => ?_⟩
      rw [hf.slack_inj hp'' hp' hs' hs]
      simp [Constraint.residual, ha, hb]
  let val : Node (Option K) → K := fun x => if hx : x ∈ cols then (hval x hx).choose else 0
  let ys := cols.map val
  have hys : ys.map some = cols.map fun x => some (val x) := by simp [ys]
  have hspec : ∀ x ∈ cols, -(10 ^ 8) ≤ val x ∧ val x ≤ 10 ^ 8 ∧ (x.id < n → x.evaluate σ = some (val x)) ∧
      ∀ p ∈ ps, p.slack = some x → p.c.residual σ = some (val x) := by
    intro x hx
    simp only [val, dif_pos hx]
    exact (hval x hx).choose_spec
  have hpt : pointOf sp.var2index (ys.map some) = pointEnv cols (ys.map some) := by rw [hf.v2i, pointOf_eq]
  have hget : ∀ x ∈ cols, (ys.map some)[colOf cols x]? = some (some (val x)) := by
    intro x hx
    rw [hys, List.getElem?_map, (hf.cok.col hx).2]; rfl
  have hvar : ∀ x, W.m.HasVar x → x ∈ cols := fun x hx => (hf.mem x).2 (hf.mf.col_of_hasVar neg_one_ne hx)
  have hagree : ∀ x, W.m.HasVar x → pointOf sp.var2index (ys.map some) x.id = σ x.id := by
    intro x hx
    have hxc := hvar x hx
    rw [hpt, pointEnv_col hf.cok hxc, hget x hxc]
    have h1 := (hspec x hxc).2.2.1 (hf.mf.old x hx).1
    have hv := hx.1
    cases x <;> simp [Node.isVar] at hv
    simp only [Node.evaluate, Node.id] at h1 ⊢
    cases hs : σ _ with
    | none => rw [hs] at h1; simp at h1
    | some w => rw [hs] at h1; simp only at h1; rw [h1]
  have hside : ∀ c ∈ W.m.constraints, c.lhs.evaluate (pointOf sp.var2index (ys.map some)) = c.lhs.evaluate σ ∧
      c.rhs.evaluate (pointOf sp.var2index (ys.map some)) = c.rhs.evaluate σ := fun c hc =>
    ⟨evaluate_congr_var _ fun x hx ho => hagree x ⟨hx, .inr ⟨c, hc, .inl ho⟩⟩,
     evaluate_congr_var _ fun x hx ho => hagree x ⟨hx, .inr ⟨c, hc, .inr ho⟩⟩⟩
  have hobj : W.m.minimised (pointOf sp.var2index (ys.map some)) = W.m.minimised σ := by
    unfold Model.minimised
    cases ho : W.m.objective with
    | minimize f => exact evaluate_congr_var _ fun x hx hoc => hagree x ⟨hx, .inl ⟨f, .inl ho, hoc⟩⟩
    | maximize f =>
      simp only
      rw [evaluate_congr_var f fun x hx hoc => hagree x ⟨hx, .inl ⟨f, .inr ho, hoc⟩⟩]
    | empty => rfl
  refine ⟨ys, ?_, by simp [ys, hf.v2i], hobj⟩
  rw [C25_feasible hr hsp (fun c hc => by
    obtain ⟨a, b, ha, hb, -⟩ := hσ.holds c hc
    exact ⟨σ, a, b, ha, hb⟩) hq]
  refine ⟨by simp [ys, hf.v2i], ?_, ?_, ?_, ?_⟩
  · intro x hx
    obtain ⟨t, ht, rfl⟩ := List.mem_map.1 hx
    obtain ⟨y, hy, rfl⟩ := List.mem_map.1 ht
    exact ⟨_, rfl, (hspec y hy).1, (hspec y hy).2.1⟩
  · intro c hc
    obtain ⟨a, b, ha, hb, hrel⟩ := hσ.holds c hc
    exact ⟨a, b, by rw [(hside c hc).1, ha], by rw [(hside c hc).2, hb], hrel⟩
  · intro x hx hi
    obtain ⟨z, hz⟩ := hσ.integral x hx hi
    refine ⟨z, ?_⟩
    rw [← hz]
    exact evaluate_congr_var x fun y hy ho => hagree y (by
      have hv := hx.1
      rw [occurs_iff] at ho
      rcases ho with rfl | ⟨a, ha, -⟩
      · exact hx
      · cases x <;> simp [Node.isVar, Node.arguments] at hv ha)
  · intro kk c s i hk hs hn hrow
    have hpc : ∃ p ∈ ps, p.slack = some s ∧ p.c = c := by
      have hsc := List.mem_of_getElem? (hf.mem_v2i.1 hs)
      simp only [hf.aindex, hf.jindex, List.mem_map, List.mem_filter, Prod.mk.injEq] at hrow
      rcases hrow with ⟨⟨p, ⟨hp', hl⟩, rfl, rfl⟩, hname⟩ | ⟨⟨p, ⟨hp', hl⟩, rfl, rfl⟩, hname⟩
      · exact ⟨p, hp', hf.slackA hp' hl hsc hn hname, rfl⟩
      · exact ⟨p, hp', hf.slackJ hp' hl hsc hn hname, rfl⟩
    obtain ⟨p, hp', hsl, rfl⟩ := hpc
    have hc : p.c ∈ W.m.constraints := by rw [← hf.mf.cs]; exact List.mem_map.2 ⟨p, hp', rfl⟩
    rw [(hside _ hc).1, (hside _ hc).2]
    have hsc := List.mem_of_getElem? (hf.mem_v2i.1 hs)
    obtain ⟨hlt, hxi⟩ := List.getElem?_eq_some_iff.1 (hf.mem_v2i.1 hs)
    have := hget s hsc
    rw [← hxi, hf.cok.col_get hlt, hxi] at this
    rw [this, ← (hspec s hsc).2.2.2 p hp' hsl]
    rfl

/-- C34: if the solver answered with a minimiser of the standard problem, then the final primals satisfy the constraints and
integrality, and their objective value is at least as good as that of every assignment that satisfies the constraints and
integrality and stays in the box. -/
theorem C34_optimal (hr : ReachableApiW H W n) {solver : SolverFn (Option K)} {mod' : Model (Option K)}
    (h : W.m.solve H solver n = .ok ((.ok (), mod'), m))
    (hs : ∀ sp status sol, W.m.SolvedBy H n solver sp status sol → ∃ q ∈ sp.prob.views, q.Minimiser sol.x)
    {σ : Env (Option K)} (hσ : W.m.Admissible σ) :
    (∀ c ∈ mod'.constraints, c.violation (mapEnv mod'.finalPrimals) = some 0 ∧ c.Holds (mapEnv mod'.finalPrimals)) ∧
    (∀ x, mod'.HasVar x → x.isInteger = true → ∃ z : ℤ, getN mod'.finalPrimals x = some (some (z : K))) ∧
    (∀ f w, mod'.objective = .minimize f → f.evaluate σ = some w →
      ∃ v, f.evaluate (mapEnv mod'.finalPrimals) = some v ∧ v ≤ w) ∧
    (∀ f w, mod'.objective = .maximize f → f.evaluate σ = some w →
      ∃ v, f.evaluate (mapEnv mod'.finalPrimals) = some v ∧ w ≤ v) := by
  obtain ⟨h1, h2⟩ := C33_feasible hr h (fun c hc => by
    obtain ⟨a, b, ha, hb, -⟩ := hσ.holds c hc
    exact ⟨σ, a, b, ha, hb⟩) (fun sp status sol hsb => by
    obtain ⟨q, hq, hm⟩ := hs sp status sol hsb
    exact ⟨q, hq, hm.feasible⟩)
  refine ⟨h1, h2, ?_⟩
  have key : ∀ w, W.m.minimised σ = some w → ∃ v, W.m.minimised (mapEnv mod'.finalPrimals) = some v ∧ v ≤ w := by
    intro w hw
    obtain ⟨sp, k, hsp, -, hs'⟩ := solve_ok h
    rcases hs' with ⟨e, -, he⟩ | ⟨status, sol, primals, duals, hsol, hx, he⟩ <;> cases he
    obtain ⟨hp, k', comp, e, ps, cols, xes, ves, hf, -, -⟩ := hr.facts hsp
    obtain ⟨q, hq, hm⟩ := hs sp status sol ⟨k, hsp, hsol⟩
    obtain ⟨ys, hfeas, hlen, hobj⟩ := admissible_point hr hsp hσ hq
    have henv : mapEnv primals = pointOf sp.var2index sol.x := by rw [hx.env hf, hf.v2i, pointOf_eq]
    simp only [henv]
    have hfs := hm.feasible
    rw [C25_feasible hr hsp (fun c hc => by
      obtain ⟨a, b, ha, hb, -⟩ := hσ.holds c hc
      exact ⟨σ, a, b, ha, hb⟩) hq] at hfs
    obtain ⟨hlx, hbox, -⟩ := hfs
    obtain ⟨v, hv, hbest⟩ := hm.best
    by_cases hc : (∃ q, sp.prob = .nlp q) ∨ ∃ q, sp.prob = .minlp q
    · have e1 := C26_nonlinear hr hsp hc hq (ops := []) rfl hlx
      have e2 := C26_nonlinear hr hsp hc hq (ops := []) rfl (xs := ys.map some) (by simp [hlen])
      rw [hv] at e1
      injection e1 with e1
      rw [hobj, hw] at e2
      exact ⟨v, e1.symm, hbest _ hfeas w e2⟩
    · have hc' : (∃ q, sp.prob = .lp q) ∨ ∃ q, sp.prob = .milp q := by
        cases hpb : sp.prob <;> simp_all
      obtain ⟨b, hb⟩ := C26_linear hr hsp hc'
      obtain ⟨ts, hts⟩ : ∃ ts : List K, sol.x = ts.map some := by
        refine ⟨sol.x.map fun x => x.getD 0, ?_⟩
        rw [List.map_map]
        refine (List.map_id _).symm.trans (List.map_congr_left fun x hxm => ?_)
        obtain ⟨t, rfl, -⟩ := hbox x hxm
        rfl
      obtain ⟨v1, e1, e1'⟩ := hb q q hq [] rfl ts (by rw [hts] at hlx; simpa using hlx)
      obtain ⟨v2, e2, e2'⟩ := hb q q hq [] rfl ys hlen
      rw [← hts] at e1 e1'
      rw [hv] at e1
      injection e1 with e1
      subst e1
      rw [hobj, hw] at e2'
      cases v2 with
      | none => simp at e2'
      | some v2 =>
        cases b with
        | none => simp at e2'
        | some b =>
          simp only [Exact.add_some, Option.some.injEq] at e2'
          refine ⟨v + b, by rw [e1']; simp, ?_⟩
          rw [e2']
          have := hbest _ hfeas v2 e2
          linarith
  obtain ⟨hobj', -, -⟩ := (C30_call h).1
  constructor
  · intro f w hf hw
    rw [hobj'] at hf
    have := key w (by simp [Model.minimised, hf, hw])
    simpa [Model.minimised, hf] using this
  · intro f w hf hw
    rw [hobj'] at hf
    obtain ⟨v, hv, hle⟩ := key (-w) (by simp [Model.minimised, hf, hw])
    simp only [Model.minimised, hf] at hv
    cases hfe : f.evaluate (mapEnv mod'.finalPrimals) with
    | none => rw [hfe] at hv; simp at hv
    | some u =>
      rw [hfe] at hv
      simp only [Exact.neg_some, Option.some.injEq] at hv
      exact ⟨u, rfl, by linarith⟩

/-- C34: if the standard problem has no feasible point, no assignment satisfies the constraints and integrality within the box. -/
theorem C34_infeasible (hr : ReachableApiW H W n) {sp : StdProb (Option K)} (hsp : W.m.stdProblem H n = .ok (sp, m))
    {q : Minlp (Option K)} (hq : q ∈ sp.prob.views) (hno : ∀ xs, ¬ q.Feasible xs) (σ : Env (Option K)) : ¬ W.m.Admissible σ := by
  intro hσ
  obtain ⟨ys, hys, -⟩ := admissible_point hr hsp hσ hq
  exact hno _ hys

end

/-- Non-vacuity of C33: the answer `exSol` for the example is feasible for the standard problem. -/
example : ∀ sp status sol, (worldOf exCmds).m.SolvedBy HashOrder.listOrder (wcount exCmds) (constSolver .solved exSol) sp status sol →
    ∃ q ∈ sp.prob.views, q.Feasible sol.x := by
  rintro sp status sol ⟨k, hsp, hsol⟩
  obtain ⟨sp', m', q, h1, h2, h3⟩ := viewOf_feas (cmds := exCmds) (xs := exSol.x) (by decide +kernel)
  rw [h1] at hsp
  cases hsp
  cases hsol
  exact ⟨q, h2, h3⟩

deriving instance DecidableEq for Objective

/-- The model `minimize x subject to x >= 2, x <= 5`. -/
def exLp : List (Cmd Q) := [.expr (.var "x" .continuous), .cmpNodeScalar .greaterEqual 0 (some 2) "a",
  .cmpNodeScalar .lessEqual 0 (some 5) "b", .addConstraints [0, 1], .minimize 0]

/-- A check that a constraint holds, for the examples. -/
def holdsCheck (c : Constraint Q) (σ : Env Q) : Bool :=
  match c.lhs.evaluate σ, c.rhs.evaluate σ with
  | some a, some b => match c.kind with
    | .equal => decide (a = b)
    | .lessEqual => decide (a ≤ b)
    | .greaterEqual => decide (b ≤ a)
  | _, _ => false

theorem holdsCheck_sound {c : Constraint Q} {σ : Env Q} (h : holdsCheck c σ = true) : c.Holds σ := by
  unfold holdsCheck at h
  cases ha : c.lhs.evaluate σ <;> cases hb : c.rhs.evaluate σ <;> simp only [ha, hb] at h <;> try (cases h; done)
  rename_i a b
  refine ⟨a, b, ha, hb, ?_⟩
  cases hk : c.kind <;> simp only [hk, decide_eq_true_eq] at h <;> exact h

/-- Non-vacuity of C34: for `minimize x subject to x >= 2, x <= 5` the answer `x = 2` is a minimiser of the standard problem, and
`x = 3` is admissible. -/
example : (∀ sp status sol, (worldOf exLp).m.SolvedBy HashOrder.listOrder (wcount exLp)
      (constSolver .solved ⟨[some 2], [], [], [some 0], [some 1]⟩) sp status sol → ∃ q ∈ sp.prob.views, q.Minimiser sol.x) ∧
    (worldOf exLp).m.Admissible (envOf [(0, 3)]) := by
  have hr : ReachableApiW HashOrder.listOrder (worldOf exLp) (wcount exLp) := runsW_reachable (by decide +kernel) (by decide +kernel)
  obtain ⟨sp, m, q, h1, h2, h3⟩ := viewOf_feas (cmds := exLp) (xs := [some 2]) (by decide +kernel)
  have hv2i : sp.var2index = [(.var 0 "x" .continuous, 0)] := by
    have : (resultOf ((worldOf exLp).m.stdProblem HashOrder.listOrder) (wcount exLp)).map (·.var2index) =
      some [(.var 0 "x" .continuous, 0)] := by decide +kernel
    simpa [resultOf, h1] using this
  have hprob : ∃ p, sp.prob = .lp p := by
    have : (resultOf ((worldOf exLp).m.stdProblem HashOrder.listOrder) (wcount exLp)).map
      (fun sp => match sp.prob with | .lp _ => true | _ => false) = some true := by decide +kernel
    simp only [resultOf, h1, Option.map_some, Option.some.injEq] at this
    cases hp : sp.prob <;> rw [hp] at this <;> simp at this ⊢
  have hl : ∀ q ∈ sp.prob.views, q.l[0]? = some (some 2) := by
    have : (resultOf ((worldOf exLp).m.stdProblem HashOrder.listOrder) (wcount exLp)).map
      (fun sp => sp.prob.views.all fun q => decide (q.l[0]? = some (some 2))) = some true := by decide +kernel
    simpa [resultOf, h1] using this
  have hobj : ∀ t : ℚ, (worldOf exLp).m.minimised (pointOf sp.var2index [some t]) = some t := by
    intro t
    have : (worldOf exLp).m.objective = .minimize (.var 0 "x" .continuous) := by decide +kernel
    simp [Model.minimised, this, hv2i, pointOf, Node.evaluate, Node.id]
  constructor
  · rintro sp' status sol ⟨k, hsp, hsol⟩
    rw [h1] at hsp
    cases hsp
    cases hsol
    refine ⟨q, h2, h3, ?_⟩
    obtain ⟨b, hb⟩ := C26_linear hr h1 (.inl hprob)
    obtain ⟨v, hv, hv'⟩ := hb q q h2 [] rfl [2] (by rw [hv2i]; rfl)
    rw [List.map_cons, List.map_nil, hobj] at hv'
    cases v with
    | none => simp at hv'
    | some v =>
      cases b with
      | none => simp at hv'
      | some b =>
        refine ⟨v, hv, fun ys hys w hw => ?_⟩
        have hlen := hys.len
        rw [(C22_bijection hr.reachable h1).1 q h2, hv2i] at hlen
        obtain ⟨y, rfl⟩ := List.length_eq_one_iff.1 hlen
        obtain ⟨t, lo, up, rfl, hlo, -, hle, -⟩ := hys.bounds 0 y rfl
        rw [hl q h2] at hlo
        simp only [Option.some.injEq] at hlo
        obtain ⟨v2, e2, e2'⟩ := hb q q h2 [] rfl [t] (by rw [hv2i]; rfl)
        rw [List.map_cons, List.map_nil] at e2 e2'
        rw [hobj] at e2'
        rw [e2] at hw
        injection hw with hw
        subst hw
        simp only [Exact.add_some, Option.some.injEq] at hv' e2'
        linarith
  · have hvar : ∀ x, (worldOf exLp).m.HasVar x → x = .var 0 "x" .continuous := by
      intro x hx
      obtain ⟨-, i, hi⟩ := (C22_variables hr.reachable h1 neg_one_ne x).1 hx
      rw [hv2i] at hi
      simp only [List.mem_singleton, Prod.mk.injEq] at hi
      exact hi.1
    refine ⟨fun c hc => holdsCheck_sound ?_, fun x hx hi => ?_, fun x hx => ?_, fun c hc _ _ a b ha hb => ?_⟩
    · revert c; decide +kernel
    · rw [hvar x hx] at hi; simp [Node.isInteger] at hi
    · rw [hvar x hx]
      exact ⟨3, by decide +kernel, by norm_num, by norm_num⟩
    · have : ∀ c ∈ (worldOf exLp).m.constraints, (c.lhs.evaluate (envOf [(0, 3)]) = some 3) ∧
        (c.rhs.evaluate (envOf [(0, 3)]) = some 2 ∨ c.rhs.evaluate (envOf [(0, 3)]) = some 5) := by decide +kernel
      obtain ⟨e1, e2⟩ := this c hc
      rw [ha] at e1
      rw [hb] at e2
      simp only [Option.some.injEq] at e1 e2
      subst e1
      rcases e2 with rfl | rfl <;> norm_num

end Verif
