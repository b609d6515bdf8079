import Verif.Spec.ExampleW
import Verif.Proofs.Class

/-! # Properties C22 - C29: the standard problem of a model -/

namespace Verif

set_option linter.unusedSectionVars false
set_option linter.unusedSimpArgs false

section
variable {F : Type} [FloatOps F] {H : HashOrder} {W : World F} {n m : Nat} {sp : StdProb F}

theorem ReachableW.facts (hr : ReachableW H W n) (h : W.m.stdProblem H n = .ok (sp, m)) :
    ∃ hp k comp e ps cols xes ves, SpFacts H .raw hp n k W.m comp e ps cols xes ves sp ∧ W.m.stdComponents H n = .ok (comp, k) := by
  obtain ⟨h0, hw⟩ := hr.inv
  obtain ⟨h1, -, -, -, k, comp, e, ps, cols, xes, ves, hf, hc⟩ := spec_stdProblem (H := H) hw.heap hw.model hw.initNd sp m h
  exact ⟨h1, k, comp, e, ps, cols, xes, ves, hf, hc⟩

theorem ReachableApiW.facts (hr : ReachableApiW H W n) (h : W.m.stdProblem H n = .ok (sp, m)) :
    ∃ hp k comp e ps cols xes ves, SpFacts H .api hp n k W.m comp e ps cols xes ves sp ∧ W.m.stdComponents H n = .ok (comp, k) ∧
      ModelGood .api hp W.m := by
  obtain ⟨h0, hw⟩ := hr.inv
  obtain ⟨h1, hle, -, -, k, comp, e, ps, cols, xes, ves, hf, hc⟩ := spec_stdProblem (H := H) hw.heap hw.model hw.initNd sp m h
  exact ⟨h1, k, comp, e, ps, cols, xes, ves, hf, hc, fun f hf => (hw.model.min f hf).mono hle, fun f hf => (hw.model.max f hf).mono hle,
    fun c hc => ⟨(hw.model.cs c hc).1.mono hle, (hw.model.cs c hc).2.mono hle⟩⟩

/-! ## C22 columns -/

/-- C22: `var2index` is a bijection between nodes and the columns `0 .. nx-1`, and the columns are in order of name. -/
theorem C22_bijection (hr : ReachableW H W n) (h : W.m.stdProblem H n = .ok (sp, m)) :
    (∀ q ∈ sp.prob.views, q.nx = sp.var2index.length) ∧
    (∀ i, i < sp.var2index.length ↔ ∃ x, (x, i) ∈ sp.var2index) ∧
    (∀ x y i j, (x, i) ∈ sp.var2index → (y, j) ∈ sp.var2index → (x.ptrEq y = true ↔ i = j)) ∧
    (∀ x y i j, (x, i) ∈ sp.var2index → (y, j) ∈ sp.var2index → i ≤ j → x.name ≤ y.name) := by
  obtain ⟨hp, k, comp, e, ps, cols, xes, ves, hf, -⟩ := hr.facts h
  have hlen : sp.var2index.length = cols.length := by rw [hf.v2i]; simp
  simp only [hf.mem_v2i, hlen]
  refine ⟨fun q hq => ?_, fun i => ?_, fun x y i j hx hy => ?_, fun x y i j hx hy hij => ?_⟩
  · simp [Minlp.nx, (hf.view hq).a, stdA, Coo.cols]
  · constructor
    · intro hi; exact ⟨_, List.getElem?_eq_getElem hi⟩
    · rintro ⟨x, hx⟩; exact (List.getElem?_eq_some_iff.1 hx).1
  · obtain ⟨hi, rfl⟩ := List.getElem?_eq_some_iff.1 hx
    obtain ⟨hj, rfl⟩ := List.getElem?_eq_some_iff.1 hy
    rw [(hf.cok.good _ (List.getElem_mem hi)).ptrEq_iff (hf.cok.good _ (List.getElem_mem hj))]
    exact List.getElem_inj hf.cok.nodup'
  · obtain ⟨hi, rfl⟩ := List.getElem?_eq_some_iff.1 hx
    obtain ⟨hj, rfl⟩ := List.getElem?_eq_some_iff.1 hy
    rcases Nat.lt_or_eq_of_le hij with hlt | rfl
    · exact List.pairwise_iff_getElem.1 hf.sorted i j hi hj hlt
    · exact List.le_refl _

/-- C22: the columns that existed before (`id < n`) are variables of the objective or of a constraint, and (unless `-1 = 0`) all of
them are there. -/
theorem C22_variables (hr : ReachableW H W n) (h : W.m.stdProblem H n = .ok (sp, m)) (hneg : (negOne ==. (zero : F)) = false)
    (x : Node F) : W.m.HasVar x ↔ x.id < n ∧ ∃ i, (x, i) ∈ sp.var2index := by
  obtain ⟨hp, k, comp, e, ps, cols, xes, ves, hf, -⟩ := hr.facts h
  simp only [hf.mem_v2i]
  rw [← List.mem_iff_getElem?]
  exact ⟨fun hx => ⟨(hf.mf.old x hx).1, (hf.mem x).2 (hf.mf.col_of_hasVar hneg hx)⟩, fun hx => hf.hasVar hx.2 hx.1⟩

/-- C22: the columns created by the call (`n ≤ id`) are continuous variables and correspond one to one to the inequality
constraints that got a row: a row of an inequality has exactly one such column, which carries its name, and every such column
belongs to a row of an inequality. -/
theorem C22_slacks (hr : ReachableW H W n) (h : W.m.stdProblem H n = .ok (sp, m)) :
    (∀ k c, (k, c) ∈ sp.aindex2constr → c.kind ≠ .equal → ∃ s, (n ≤ s.id ∧ (∃ i, (s, i) ∈ sp.var2index) ∧ s.name = slackNameA k) ∧
      ∀ s', n ≤ s'.id → (∃ i, (s', i) ∈ sp.var2index) → s'.name = slackNameA k → s' = s) ∧
    (∀ k c, (k, c) ∈ sp.jindex2constr → c.kind ≠ .equal → ∃ s, (n ≤ s.id ∧ (∃ i, (s, i) ∈ sp.var2index) ∧ s.name = slackNameJ k) ∧
      ∀ s', n ≤ s'.id → (∃ i, (s', i) ∈ sp.var2index) → s'.name = slackNameJ k → s' = s) ∧
    (∀ s i, (s, i) ∈ sp.var2index → n ≤ s.id → s.isVar = true ∧ s.isInteger = false ∧
      ((∃ k c, (k, c) ∈ sp.aindex2constr ∧ c.kind ≠ .equal ∧ s.name = slackNameA k) ∨
       (∃ k c, (k, c) ∈ sp.jindex2constr ∧ c.kind ≠ .equal ∧ s.name = slackNameJ k))) := by
  obtain ⟨hp, k, comp, e, ps, cols, xes, ves, hf, -⟩ := hr.facts h
  simp only [hf.mem_v2i, hf.aindex, hf.jindex, ← List.mem_iff_getElem?, List.mem_map, List.mem_filter, Prod.mk.injEq]
  refine ⟨?_, ?_, ?_⟩
  · rintro k c ⟨p, ⟨hp', hl⟩, rfl, rfl⟩ hk
    obtain ⟨n', m', -, -, hok⟩ := hf.mf.piece hp'
    obtain ⟨s, hs⟩ := (hok.slack_lin hl).1 hk
    have hcol := hf.newCol.2 ⟨p, hp', hs⟩
    refine ⟨s, ⟨hcol.2, hcol.1, ((hok.slack_lin hl).2 s hs).2⟩, fun s' h1 h2 h3 => ?_⟩
    have := hf.slackA hp' hl h2 h1 h3
    rw [hs] at this; injection this with this; exact this.symm
  · rintro k c ⟨p, ⟨hp', hl⟩, rfl, rfl⟩ hk
    obtain ⟨n', m', -, -, hok⟩ := hf.mf.piece hp'
    obtain ⟨s, hs⟩ := (hok.slack_nl hl).1 hk
    have hcol := hf.newCol.2 ⟨p, hp', hs⟩
    refine ⟨s, ⟨hcol.2, hcol.1, ((hok.slack_nl hl).2 s hs).2⟩, fun s' h1 h2 h3 => ?_⟩
    have := hf.slackJ hp' hl h2 h1 h3
    rw [hs] at this; injection this with this; exact this.symm
  · intro s i hs hn
    obtain ⟨p, hp', hsl⟩ := hf.newCol.1 ⟨List.mem_of_getElem? hs, hn⟩
    obtain ⟨n', m', -, -, hok⟩ := hf.mf.piece hp'
    obtain ⟨-, j, str, hsv, -⟩ := hok.slack s hsl
    refine ⟨by rw [hsv]; rfl, by rw [hsv]; rfl, ?_⟩
    rcases Piece.slack_row hsl with hl | hl
    · have := (hok.slack_lin hl).2 s hsl
      exact .inl ⟨p.arow, p.c, ⟨p, ⟨hp', hl⟩, rfl, rfl⟩, this.1, this.2⟩
    · have := (hok.slack_nl hl).2 s hsl
      exact .inr ⟨p.jrow, p.c, ⟨p, ⟨hp', hl⟩, rfl, rfl⟩, this.1, this.2⟩

/-- C22: the rows belong to constraints of the model: row numbers are `0, 1, ...`, each with a constraint of the model, in the
order of the model. -/
theorem C22_rows (hr : ReachableW H W n) (h : W.m.stdProblem H n = .ok (sp, m)) :
    (∀ q ∈ sp.prob.views, sp.aindex2constr.map Prod.fst = List.range q.na) ∧
    (sp.aindex2constr.map Prod.snd).Sublist W.m.constraints ∧ (sp.jindex2constr.map Prod.snd).Sublist W.m.constraints ∧
    (∃ nf, sp.jindex2constr.map Prod.fst = List.range nf) := by
  obtain ⟨hp, k, comp, e, ps, cols, xes, ves, hf, -⟩ := hr.facts h
  obtain ⟨k', -, hch⟩ := hf.mf.chain
  have hblen : comp.constr.b.length = (ps.filter Piece.isLin).length := by
    rw [hf.mf.constr]
    simp only [ConstrComp.concat, List.flatMap_map]
    clear hf hch
    induction ps with
    | nil => rfl
    | cons p ps ih =>
      have hp : p.out.b.length = if p.isLin then 1 else 0 := by simp only [Piece.out]; split <;> simp
      rw [List.flatMap_cons, List.length_append, ih, List.filter_cons, hp]
      split <;> simp; omega
  refine ⟨fun q hq => ?_, ?_, ?_, ?_⟩
  · rw [hf.aindex, Minlp.na, (hf.view hq).b, hblen, List.range_eq_range', ← hch.lin]
    simp [Function.comp_def]
  · rw [hf.aindex, ← hf.mf.cs]
    simp only [List.map_map, Function.comp_def]
    exact List.filter_sublist.map _
  · rw [hf.jindex, ← hf.mf.cs]
    simp only [List.map_map, Function.comp_def]
    exact List.filter_sublist.map _
  · refine ⟨(ps.filter Piece.isNl).length, ?_⟩
    rw [hf.jindex, List.range_eq_range', ← hch.nl]
    simp [Function.comp_def]

end

/-- A model with an integer variable `x`, a variable `y`, a linear inequality, a nonlinear inequality and a bound. -/
def exCmds : List (Cmd Q) := [.expr (.var "x" .integer), .expr (.var "y" .continuous), .expr (.add 0 1), .expr (.mul 0 1),
  .cmpNodeScalar .lessEqual 2 (some 5) "a", .cmpNodeScalar .greaterEqual 3 (some 1) "b", .cmpNodeScalar .lessEqual 1 (some 4) "c",
  .addConstraints [0, 1, 2], .minimize 2, .setInitPrimals [(1, some 2)]]

/-- The standard problem of the example. -/
def exSp : Option (StdProb Q) := resultOf ((worldOf exCmds).m.stdProblem HashOrder.listOrder) (wcount exCmds)

/-- Non-vacuity of C22: the example has the columns `_s_a0_`, `_s_j0_`, `x`, `y`. -/
example : ReachableApiW HashOrder.listOrder (worldOf exCmds) (wcount exCmds) ∧
    exSp.map (fun sp => (sp.var2index.map fun e => (e.1.name, e.2), sp.aindex2constr.map fun e => (e.1, e.2.label),
      sp.jindex2constr.map fun e => (e.1, e.2.label))) =
      some ([("_s_a0_", 0), ("_s_j0_", 1), ("x", 2), ("y", 3)], [(0, "a")], [(0, "b")]) :=
  ⟨runsW_reachable (by decide +kernel) (by decide +kernel), by decide +kernel⟩

/-! ## C23 no other panic -/

/-- C23: after any history, `std_problem` panics exactly when `std_components` of the model does, with the same panic. -/
theorem C23_total {F : Type} [FloatOps F] {H : HashOrder} {W : World F} {n : Nat} (hr : ReachableW H W n) (p : Panic) :
    W.m.stdProblem H n = .error p ↔ W.m.stdComponents H n = .error p := by
  obtain ⟨h0, hw⟩ := hr.inv
  constructor
  · intro h
    cases hc : W.m.stdComponents H n with
    | ok r =>
      obtain ⟨comp, k⟩ := r
      obtain ⟨h1, -, -, -, e, ps, hf⟩ := spec_modelComp (H := H) hw.heap hw.model comp k hc
      obtain ⟨sp, _, _, _, m', hok, -⟩ := stdProblem_after hf hw.initNd hc
      rw [hok] at h; cases h
    | error p' =>
      have : W.m.stdProblem H n = .error p' := by unfold Model.stdProblem; rw [M.bind_error]; exact .inl hc
      rw [this] at h
      injection h with h
      rw [h]
  · intro h
    unfold Model.stdProblem; rw [M.bind_error]; exact .inl h

/-- C23, constraint by constraint: `std_components` of the model succeeds exactly when that of the objective and then, one after
the other, those of the constraints do (`steps` is the list of the results). -/
theorem C23_components {F : Type} [FloatOps F] {H : HashOrder} {mod : Model F} {n : Nat} :
    (∃ r, mod.stdComponents H n = .ok r) ↔ ∃ obj k, mod.objComponents H n = .ok (obj, k) ∧
      ∃ steps : List ((ConstrComp F × Nat × Nat) × Nat), steps.length = mod.constraints.length ∧
        ∀ (i : Nat) (c : Constraint F) (r : (ConstrComp F × Nat × Nat) × Nat), mod.constraints[i]? = some c → steps[i]? = some r →
          ∃ ar jr k', (match i with
            | 0 => (ar, jr, k') = (0, 0, k)
            | j + 1 => ∃ r', steps[j]? = some r' ∧ (ar, jr, k') = (r'.1.2.1, r'.1.2.2, r'.2)) ∧
            c.stdComponents H ar jr k' = .ok r := by
  have loop : ∀ (cs : List (Constraint F)) (s : ConstrComp F) (ar jr k : Nat), (∃ r, constrLoop H (s, ar, jr) cs k = .ok r) ↔
      ∃ steps : List ((ConstrComp F × Nat × Nat) × Nat), steps.length = cs.length ∧
        ∀ (i : Nat) (c : Constraint F) (r : (ConstrComp F × Nat × Nat) × Nat), cs[i]? = some c → steps[i]? = some r →
          ∃ ar' jr' k', (match i with
            | 0 => (ar', jr', k') = (ar, jr, k)
            | j + 1 => ∃ r', steps[j]? = some r' ∧ (ar', jr', k') = (r'.1.2.1, r'.1.2.2, r'.2)) ∧
            c.stdComponents H ar' jr' k' = .ok r := by
    intro cs
    induction cs with
    | nil =>
      intro s ar jr k
      exact ⟨fun _ => ⟨[], rfl, by simp⟩, fun _ => ⟨_, rfl⟩⟩
    | cons c cs ih =>
      intro s ar jr k
      constructor
      · rintro ⟨r, hr⟩
        simp only [constrLoop] at hr
        rw [show r = (r.1, r.2) from rfl, M.bind_ok] at hr
        obtain ⟨⟨cc, ar', jr'⟩, k', h1, h2⟩ := hr
        obtain ⟨steps, hlen, hst⟩ := (ih _ _ _ _).1 ⟨_, h2⟩
        refine ⟨((cc, ar', jr'), k') :: steps, by simp [hlen], fun i d r hd hr => ?_⟩
        cases i with
        | zero =>
          simp only [List.getElem?_cons_zero, Option.some.injEq] at hd hr
          subst hd hr
          exact ⟨ar, jr, k, rfl, h1⟩
        | succ i =>
          simp only [List.getElem?_cons_succ] at hd hr
          obtain ⟨a, b, c', h3, h4⟩ := hst i d r hd hr
          refine ⟨a, b, c', ?_, h4⟩
          cases i with
          | zero => exact ⟨((cc, ar', jr'), k'), rfl, h3⟩
          | succ j =>
            obtain ⟨r', hr', he⟩ := h3
            exact ⟨r', by simpa using hr', he⟩
      · rintro ⟨steps, hlen, hst⟩
        cases steps with
        | nil => simp at hlen
        | cons r0 steps =>
          obtain ⟨⟨cc, ar', jr'⟩, k'⟩ := r0
          obtain ⟨a, b, c', h3, h4⟩ := hst 0 c _ rfl rfl
          simp only [Prod.mk.injEq] at h3
          obtain ⟨rfl, rfl, rfl⟩ := h3
          obtain ⟨r, hr⟩ := (ih (s.append cc) ar' jr' k').2 ⟨steps, by simpa using hlen, fun i d r hd hr => by
            obtain ⟨x, y, z, h5, h6⟩ := hst (i + 1) d r (by simpa using hd) (by simpa using hr)
            refine ⟨x, y, z, ?_, h6⟩
            cases i with
            | zero =>
              obtain ⟨r', hr', he⟩ := h5
              simp only [List.getElem?_cons_zero, Option.some.injEq] at hr'
              subst hr'
              exact he
            | succ j =>
              obtain ⟨r', hr', he⟩ := h5
              exact ⟨r', by simpa using hr', he⟩⟩
          refine ⟨r, ?_⟩
          simp only [constrLoop]
          rw [M.bind_ok_eq h4]
          exact hr
  constructor
  · rintro ⟨r, hr⟩
    unfold Model.stdComponents at hr
    rw [show r = (r.1, r.2) from rfl, M.bind_ok] at hr
    obtain ⟨obj, k, h1, h2⟩ := hr
    rw [M.bind_ok] at h2
    obtain ⟨r2, k2, h2, -⟩ := h2
    exact ⟨obj, k, h1, (loop _ _ _ _ _).1 ⟨_, h2⟩⟩
  · rintro ⟨obj, k, h1, h2⟩
    obtain ⟨r, hr⟩ := (loop _ ConstrComp.empty 0 0 k).2 h2
    refine ⟨(⟨obj, r.1.1⟩, r.2), ?_⟩
    unfold Model.stdComponents
    rw [M.bind_ok_eq h1, M.bind_ok_eq (show constrLoop H (ConstrComp.empty, 0, 0) mod.constraints k = .ok (r.1, r.2) from hr)]
    rfl

/-- Non-vacuity of C23: both succeed for the example, and both panic for the constraint `x + 5 <= 5`. -/
example :
    let cmds : List (Cmd Q) := [.expr (.var "x" .continuous), .expr (.addScalar 0 (some 5)), .cmpNodeScalar .lessEqual 1 (some 5) "",
      .addConstraint 0]
    exSp.isSome = true ∧ ReachableApiW HashOrder.listOrder (worldOf cmds) (wcount cmds) ∧
    panicOf ((worldOf cmds).m.stdProblem HashOrder.listOrder) (wcount cmds) = some .addArgs ∧
    panicOf ((worldOf cmds).m.stdComponents HashOrder.listOrder) (wcount cmds) = some .addArgs :=
  ⟨by decide +kernel, runsW_reachable (by decide +kernel) (by decide +kernel), by decide +kernel, by decide +kernel⟩

/-! ## C24 class of the problem -/

/-- The objective and both sides of every constraint are reported affine by `std_properties`. -/
def Model.Linear {F : Type} [FloatOps F] (M : Model F) : Prop :=
  (∀ f, M.objective = .minimize f ∨ M.objective = .maximize f → f.stdProperties.affine = true) ∧
  ∀ c ∈ M.constraints, c.lhs.stdProperties.affine = true ∧ c.rhs.stdProperties.affine = true

/-- An integer variable occurs in the objective or in a constraint. -/
def Model.HasInteger {F : Type} (M : Model F) : Prop := ∃ x, M.HasVar x ∧ x.isInteger = true

/-- C24: the class of the standard problem of any model built with the operators, for all four classes. -/
theorem C24_class {F : Type} [FloatOps F] {H : HashOrder} {W : World F} {n m : Nat} {sp : StdProb F} (hr : ReachableApiW H W n)
    (h : W.m.stdProblem H n = .ok (sp, m)) (hneg : (negOne ==. (zero : F)) = false) :
    ((∃ q, sp.prob = .lp q) ↔ W.m.Linear ∧ ¬ W.m.HasInteger) ∧
    ((∃ q, sp.prob = .milp q) ↔ W.m.Linear ∧ W.m.HasInteger) ∧
    ((∃ q, sp.prob = .nlp q) ↔ ¬ W.m.Linear ∧ ¬ W.m.HasInteger) ∧
    ((∃ q, sp.prob = .minlp q) ↔ ¬ W.m.Linear ∧ W.m.HasInteger) := by
  obtain ⟨hp, k, comp, e, ps, cols, xes, ves, hf, -, hg⟩ := hr.facts h
  have hlin : (comp.obj.prop.affine = true ∧ comp.constr.f = []) ↔ W.m.Linear := by
    unfold Model.Linear
    rw [hf.mf.objAff (by simp) hneg hg.max, hf.mf.constrAff (by simp) hneg fun c hc => (hg.cs c hc).2]
  have hint : (∀ x ∈ cols, x.isInteger = false) ↔ ¬ W.m.HasInteger := by
    unfold Model.HasInteger
    constructor
    · rintro hall ⟨x, hx, hi⟩
      rw [hall x ((hf.mem x).2 (hf.mf.col_of_hasVar hneg hx))] at hi; cases hi
    · intro hno x hx
      rw [← Bool.not_eq_true]
      intro hi
      by_cases hn : x.id < n
      · exact hno ⟨x, hf.hasVar hx hn, hi⟩
      · obtain ⟨p, hp', hs⟩ := hf.newCol.1 ⟨hx, by omega⟩
        obtain ⟨n', m', -, -, hok⟩ := hf.mf.piece hp'
        obtain ⟨-, j, str, rfl, -⟩ := hok.slack x hs
        simp [Node.isInteger] at hi
  rw [hf.prob]
  unfold stdProbOf
  by_cases h1 : W.m.Linear <;> by_cases h2 : W.m.HasInteger <;> simp [hlin, hint, h1, h2]

/-- Non-vacuity of C24: the example is a Minlp; without the product an Lp or a Milp. -/
example : exSp.map (fun sp => match sp.prob with | .lp _ => 0 | .milp _ => 1 | .nlp _ => 2 | .minlp _ => 3) = some 3 ∧
    (let cmds : List (Cmd Q) := [.expr (.var "x" .integer), .expr (.var "y" .continuous), .expr (.add 0 1), .maximize 2]
     (resultOf ((worldOf cmds).m.stdProblem HashOrder.listOrder) (wcount cmds)).map
      (fun sp => match sp.prob with | .lp _ => 0 | .milp _ => 1 | .nlp _ => 2 | .minlp _ => 3) = some 1) := by
  constructor <;> decide +kernel

/-! ## C25 feasible points -/

section
variable {K : Type} [Field K] [LinearOrder K] [IsStrictOrderedRing K] [Trig K]

theorem neg_one_ne : (negOne ==. (zero : Option K)) = false := by simp

/-- C25: for any model built with the operators whose constraints each have a value somewhere, a point is feasible for (any view
of) the standard problem if and only if it has one entry per column, all in `[-1e8, 1e8]`, every constraint of the model holds at
it, every integer variable of the model has an integer value, and the slack of each inequality row equals `lhs - rhs`. -/
theorem C25_feasible {H : HashOrder} {W : World (Option K)} {n m : Nat} {sp : StdProb (Option K)} (hr : ReachableApiW H W n)
    (h : W.m.stdProblem H n = .ok (sp, m))
    (hd : ∀ c ∈ W.m.constraints, ∃ σ a b, c.lhs.evaluate σ = some a ∧ c.rhs.evaluate σ = some b)
    {q : Minlp (Option K)} (hq : q ∈ sp.prob.views) (xs : List (Option K)) :
    q.Feasible xs ↔
      xs.length = sp.var2index.length ∧ (∀ x ∈ xs, ∃ t : K, x = some t ∧ -(10 ^ 8) ≤ t ∧ t ≤ 10 ^ 8) ∧
      (∀ c ∈ W.m.constraints, c.Holds (pointOf sp.var2index xs)) ∧
      (∀ x, W.m.HasVar x → x.isInteger = true → ∃ z : ℤ, x.evaluate (pointOf sp.var2index xs) = some (z : K)) ∧
      (∀ k c s i, c.kind ≠ .equal → (s, i) ∈ sp.var2index → n ≤ s.id →
        ((k, c) ∈ sp.aindex2constr ∧ s.name = slackNameA k ∨ (k, c) ∈ sp.jindex2constr ∧ s.name = slackNameJ k) →
        xs[i]? = some (c.lhs.evaluate (pointOf sp.var2index xs) -. c.rhs.evaluate (pointOf sp.var2index xs))) := by
  obtain ⟨hp, k, comp, e, ps, cols, xes, ves, hf, -, hg⟩ := hr.facts h
  rw [hf.feasible (by simp) (fun c hc => by
    obtain ⟨σ, a, b, h1, h2⟩ := hd c hc
    exact ⟨σ, a - b, by simp [Constraint.residual, h1, h2]⟩) hq]
  have hlen : sp.var2index.length = cols.length := by rw [hf.v2i]; simp
  have hpt : pointOf sp.var2index xs = pointEnv cols xs := by rw [hf.v2i, pointOf_eq]
  rw [hlen, hpt]
  have hint : (∀ x ∈ cols, x.isInteger = true → ∃ z : ℤ, x.evaluate (pointEnv cols xs) = some (z : K)) ↔
      ∀ x, W.m.HasVar x → x.isInteger = true → ∃ z : ℤ, x.evaluate (pointEnv cols xs) = some (z : K) := by
    constructor
    · exact fun hh x hx => hh x ((hf.mem x).2 (hf.mf.col_of_hasVar neg_one_ne hx))
    · intro hh x hx hi
      by_cases hn : x.id < n
      · exact hh x (hf.hasVar hx hn) hi
      · obtain ⟨p, hp', hs⟩ := hf.newCol.1 ⟨hx, by omega⟩
        obtain ⟨n', m', -, -, hok⟩ := hf.mf.piece hp'
        obtain ⟨-, j, str, rfl, -⟩ := hok.slack x hs
        simp [Node.isInteger] at hi
  rw [hint]
  have hcol : ∀ (s : Node (Option K)) (i : Nat), cols[i]? = some s → xs.length = cols.length → ∀ v, (s.evaluate (pointEnv cols xs) = v ↔ xs[i]? = some v) := by
    intro s i hi hx v
    obtain ⟨hlt, rfl⟩ := List.getElem?_eq_some_iff.1 hi
    have hlt' : i < xs.length := by omega
    rw [evaluate_col hf.cok (List.getElem_mem hlt), hf.cok.col_get hlt, List.getElem?_eq_getElem hlt']
    simp
  have hslack : xs.length = cols.length →
      ((∀ p ∈ ps, ∀ s, p.slack = some s → s.evaluate (pointEnv cols xs) = p.c.residual (pointEnv cols xs)) ↔
      (∀ k c s i, c.kind ≠ .equal → (s, i) ∈ sp.var2index → n ≤ s.id →
        ((k, c) ∈ sp.aindex2constr ∧ s.name = slackNameA k ∨ (k, c) ∈ sp.jindex2constr ∧ s.name = slackNameJ k) →
        xs[i]? = some (c.lhs.evaluate (pointEnv cols xs) -. c.rhs.evaluate (pointEnv cols xs)))) := by
    intro hx
    simp only [hf.mem_v2i, hf.aindex, hf.jindex, List.mem_map, List.mem_filter, Prod.mk.injEq]
    constructor
    · rintro hh k c s i hk hs hn (⟨⟨p, ⟨hp', hl⟩, rfl, rfl⟩, hname⟩ | ⟨⟨p, ⟨hp', hl⟩, rfl, rfl⟩, hname⟩)
      · exact (hcol s i hs hx _).1 (hh p hp' s (hf.slackA hp' hl (List.mem_of_getElem? hs) hn hname))
      · exact (hcol s i hs hx _).1 (hh p hp' s (hf.slackJ hp' hl (List.mem_of_getElem? hs) hn hname))
    · intro hh p hp' s hs
      obtain ⟨hsc, hn⟩ := hf.newCol.2 ⟨p, hp', hs⟩
      obtain ⟨i, hi⟩ := List.mem_iff_getElem?.1 hsc
      obtain ⟨n', m', -, -, hok⟩ := hf.mf.piece hp'
      refine (hcol s i hi hx _).2 ?_
      rcases Piece.slack_row hs with hl | hl
      · have := (hok.slack_lin hl).2 s hs
        exact hh p.arow p.c s i this.1 hi hn (.inl ⟨⟨p, ⟨hp', hl⟩, rfl, rfl⟩, this.2⟩)
      · have := (hok.slack_nl hl).2 s hs
        exact hh p.jrow p.c s i this.1 hi hn (.inr ⟨⟨p, ⟨hp', hl⟩, rfl, rfl⟩, this.2⟩)
  constructor
  · rintro ⟨h1, h2, h3, h4, h5⟩
    exact ⟨h1, h4, h2, h5, (hslack h1).1 h3⟩
  · rintro ⟨h1, h2, h3, h4, h5⟩
    exact ⟨h1, h3, (hslack h1).2 h5, h2, h4⟩

end

/-- Non-vacuity of C25: the point `_s_a0_ = -1, _s_j0_ = 2, x = 1, y = 3` of the example is feasible, and its constraints have values
somewhere. -/
example : (∃ sp m q, (worldOf exCmds).m.stdProblem HashOrder.listOrder (wcount exCmds) = .ok (sp, m) ∧ q ∈ sp.prob.views ∧
      q.Feasible [some (-1), some 2, some 1, some 3]) ∧
    (∀ c ∈ (worldOf exCmds).m.constraints, ∃ σ a b, c.lhs.evaluate σ = some a ∧ c.rhs.evaluate σ = some b) := by
  refine ⟨viewOf_feas (by decide +kernel), fun c hc => ⟨envOf [(0, 1), (1, 3)], ?_⟩⟩
  have : ∀ c ∈ (worldOf exCmds).m.constraints, (c.lhs.evaluate (envOf [(0, 1), (1, 3)])).isSome = true ∧
    (c.rhs.evaluate (envOf [(0, 1), (1, 3)])).isSome = true := by decide +kernel
  obtain ⟨h1, h2⟩ := this c hc
  obtain ⟨a, ha⟩ := Option.isSome_iff_exists.1 h1
  obtain ⟨b, hb⟩ := Option.isSome_iff_exists.1 h2
  exact ⟨a, b, ha, hb⟩

/-- C25, the hypothesis is needed: the constraint `x <= NaN` holds nowhere, but the standard problem of a model with it has feasible
points. -/
theorem C25_nan_bound :
    let cmds : List (Cmd Q) := [.expr (.var "x" .continuous), .cmpNodeScalar .lessEqual 0 none "", .addConstraint 0]
    ReachableApiW HashOrder.listOrder (worldOf cmds) (wcount cmds) ∧
    (∃ sp m q, (worldOf cmds).m.stdProblem HashOrder.listOrder (wcount cmds) = .ok (sp, m) ∧ q ∈ sp.prob.views ∧
      q.Feasible [some 0]) ∧
    ∃ c ∈ (worldOf cmds).m.constraints, ∀ σ, ¬ c.Holds σ := by
  refine ⟨runsW_reachable (by decide +kernel) (by decide +kernel), viewOf_feas (by decide +kernel), ?_⟩
  refine ⟨(worldOf [.expr (.var "x" .continuous), .cmpNodeScalar .lessEqual 0 none "", .addConstraint 0]).m.constraints[0]!,
    get_mem (by decide +kernel), ?_⟩
  rintro σ ⟨a, b, -, hb, -⟩
  have : ((worldOf [.expr (.var "x" .continuous), .cmpNodeScalar .lessEqual 0 none "", .addConstraint 0]).m.constraints[0]!).rhs =
    .const 1 none := by decide +kernel
  rw [this] at hb
  simp [Node.evaluate] at hb

end Verif
