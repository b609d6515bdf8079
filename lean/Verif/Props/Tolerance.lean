import Verif.Props.Solve
import Verif.Proofs.Tolerance

/-! # C65 answers that are feasible or optimal up to tolerances -/

set_option linter.unusedSectionVars false

namespace Verif

section
variable {K : Type} [Field K] [LinearOrder K] [IsStrictOrderedRing K] [Trig K]
variable {H : HashOrder} {W : World (Option K)} {n m : Nat}

/-- `HoldsWithin` says what `violation` reports. -/
theorem C65_violation (c : Constraint (Option K)) (σ : Env (Option K)) {t : K} (ht : 0 ≤ t) :
    c.HoldsWithin t σ ↔ (∃ a b, c.lhs.evaluate σ = some a ∧ c.rhs.evaluate σ = some b) ∧ ∃ w, c.violation σ = some w ∧ w ≤ t := by
  unfold Constraint.HoldsWithin
  constructor
  · rintro ⟨a, b, ha, hb, hw⟩
    refine ⟨⟨a, b, ha, hb⟩, _, C18_distance c σ ha hb, ?_⟩
    cases hk : c.kind <;> simp only [hk, CKind.Within] at hw ⊢
    · exact hw
    · exact max_le ht (by linarith)
    · exact max_le ht (by linarith)
  · rintro ⟨⟨a, b, ha, hb⟩, w, hw, hle⟩
    refine ⟨a, b, ha, hb, ?_⟩
    rw [C18_distance c σ ha hb] at hw
    injection hw with hw
    cases hk : c.kind <;> simp only [hk, CKind.Within] at hw ⊢
    · rw [hw]; exact hle
    · have := le_max_right (0 : K) (a - b); linarith
    · have := le_max_right (0 : K) (b - a); linarith

/-- With tolerances 0 the notion is that of a feasible point. -/
theorem C65_zero (q : Minlp (Option K)) (xs : List (Option K)) : q.FeasibleWithin 0 0 0 xs ↔ q.Feasible xs := by
  constructor
  · rintro ⟨h1, h2, ⟨q', h3, h3'⟩, h4, h5⟩
    refine ⟨h1, fun i v hv => ?_, ⟨q', h3, fun v hv => ?_⟩, fun i x hx => ?_, fun i hi => ?_⟩
    · obtain ⟨t, y, ht, hy, hle⟩ := h2 i v hv
      have := abs_nonpos_iff.1 hle
      exact ⟨t, ht, by rw [hy, sub_eq_zero.1 this]⟩
    · obtain ⟨y, rfl, hle⟩ := h3' v hv
      rw [abs_nonpos_iff.1 hle]
    · simpa using h4 i x hx
    · obtain ⟨t, z, ht, hle⟩ := h5 i hi
      exact ⟨z, by rw [ht, sub_eq_zero.1 (abs_nonpos_iff.1 hle)]⟩
  · rintro ⟨h1, h2, ⟨q', h3, h3'⟩, h4, h5⟩
    refine ⟨h1, fun i v hv => ?_, ⟨q', h3, fun v hv => ⟨0, h3' v hv, by simp⟩⟩, fun i x hx => ?_, fun i hi => ?_⟩
    · obtain ⟨t, ht, hy⟩ := h2 i v hv
      exact ⟨t, t, ht, hy, by simp⟩
    · simpa using h4 i x hx
    · obtain ⟨z, hz⟩ := h5 i hi
      exact ⟨z, z, hz, by simp⟩

/-- C65: if the solver answered with a point that satisfies the rows of the standard problem up to `δ`, its bounds up to `ε` and
integrality up to `η`, then at the final primals both sides of every constraint of the model have values, equality constraints are
violated by at most `δ`, constraints that bound a variable by at most `ε`, the other inequality constraints by at most `δ + ε`, and
every integer variable of the model is within `η` of an integer. -/
theorem C65_feasible (hr : ReachableApiW H W n) {solver : SolverFn (Option K)} {mod' : Model (Option K)}
    (h : W.m.solve H solver n = .ok ((.ok (), mod'), m))
    (hd : ∀ c ∈ W.m.constraints, ∃ σ a b, c.lhs.evaluate σ = some a ∧ c.rhs.evaluate σ = some b) {δ ε η : K} (hδ : 0 ≤ δ) (hε : 0 ≤ ε)
    (hs : ∀ sp status sol, W.m.SolvedBy H n solver sp status sol → ∃ q ∈ sp.prob.views, q.FeasibleWithin δ ε η sol.x) :
    (∀ c ∈ mod'.constraints, ∃ a b w, c.lhs.evaluate (mapEnv mod'.finalPrimals) = some a ∧
      c.rhs.evaluate (mapEnv mod'.finalPrimals) = some b ∧ c.violation (mapEnv mod'.finalPrimals) = some w ∧
      w ≤ δ + ε ∧ (c.kind = .equal → w ≤ δ) ∧ ∀ x v, c.Bounds x v → w ≤ ε) ∧
    (∀ x, mod'.HasVar x → x.isInteger = true → ∃ (t : K) (z : ℤ), getN mod'.finalPrimals x = some (some t) ∧ |t - z| ≤ η) := by
  obtain ⟨sp, k, hsp, -, hs'⟩ := solve_ok h
  rcases hs' with ⟨e, -, he⟩ | ⟨status, sol, primals, duals, hsol, hx, he⟩ <;> cases he
  obtain ⟨hp, k', comp, e, ps, cols, xes, ves, hf, -, -⟩ := hr.facts hsp
  obtain ⟨q, hq, hfeas⟩ := hs sp status sol ⟨k, hsp, hsol⟩
  rw [hf.within (by simp) (fun c hc => by
    obtain ⟨σ, a, b, h1, h2⟩ := hd c hc
    exact ⟨σ, a - b, by simp [Constraint.residual, h1, h2]⟩) hq] at hfeas
  obtain ⟨hlen, hpc, hbox, hint⟩ := hfeas
  have henv : mapEnv primals = pointEnv cols sol.x := hx.env hf
  simp only [henv]
  refine ⟨fun c hc => ?_, fun x hxv hi => ?_⟩
  · have hc' : c ∈ W.m.constraints := hc
    rw [← hf.mf.cs] at hc'
    obtain ⟨p, hp', rfl⟩ := List.mem_map.1 hc'
    obtain ⟨n', m', -, -, hok⟩ := hf.mf.piece hp'
    obtain ⟨d, hd', heq, hb, hsl⟩ := hpc p hp'
    obtain ⟨a, b, ha, hb', rfl⟩ : ∃ a b, p.c.lhs.evaluate (pointEnv cols sol.x) = some a ∧
        p.c.rhs.evaluate (pointEnv cols sol.x) = some b ∧ a - b = d := by
      unfold Constraint.residual at hd'
      cases h1 : p.c.lhs.evaluate (pointEnv cols sol.x) <;> cases h2 : p.c.rhs.evaluate (pointEnv cols sol.x) <;>
        rw [h1, h2] at hd' <;> simp at hd' <;> exact ⟨_, _, rfl, rfl, hd'⟩
    refine ⟨a, b, _, ha, hb', C18_distance _ _ ha hb', ?_, ?_, ?_⟩
    · cases hk : p.kind with
      | bound x =>
        have := hb x hk
        cases hkk : p.c.kind <;> simp only [hkk, CKind.Within] at this ⊢
        · linarith [heq hkk]
        all_goals exact max_le (by linarith) (by linarith)
      | linEq es =>
        have hkk : p.c.kind = .equal := hok.equal.2 (by simp [Piece.bnd, hk])
        simp only [hkk]; linarith [heq hkk]
      | nlEq =>
        have hkk : p.c.kind = .equal := hok.equal.2 (by simp [Piece.bnd, hk])
        simp only [hkk]; linarith [heq hkk]
      | linIneq es s =>
        obtain ⟨sv, -, h1, h2⟩ := hsl s (by simp [Piece.slack, hk])
        obtain ⟨h3, h4⟩ := abs_le.1 h1
        cases hkk : p.c.kind <;> simp only [hkk, CKind.Within] at h2 ⊢
        · linarith [heq hkk]
        all_goals exact max_le (by linarith) (by linarith)
      | nlIneq s f m1 =>
        obtain ⟨sv, -, h1, h2⟩ := hsl s (by simp [Piece.slack, hk])
        obtain ⟨h3, h4⟩ := abs_le.1 h1
        cases hkk : p.c.kind <;> simp only [hkk, CKind.Within] at h2 ⊢
        · linarith [heq hkk]
        all_goals exact max_le (by linarith) (by linarith)
    · intro hkk
      simp only [hkk]; exact heq hkk
    · intro x v hbd
      have := hb x (hok.bounds_iff.1 hbd).1
      cases hkk : p.c.kind <;> simp only [hkk, CKind.Within] at this ⊢
      · exact absurd hkk hbd.1
      all_goals exact max_le hε (by linarith)
  · have hxc : x ∈ cols := (hf.mem x).2 (hf.mf.col_of_hasVar neg_one_ne hxv)
    obtain ⟨t, z, hz, hle⟩ := hint x hxc hi
    refine ⟨t, z, ?_, hle⟩
    obtain ⟨h1, h2, h3, h4⟩ := hx.primals hf
    obtain ⟨-, i, hi⟩ := (C22_variables hr.reachable hsp neg_one_ne x).1 hxv
    obtain ⟨v, hv, hm⟩ := h4 x i hi
    rw [getN_mem h1 hm]
    rw [evaluate_col hf.cok hxc] at hz
    obtain ⟨hlt, hxi⟩ := List.getElem?_eq_some_iff.1 (hf.mem_v2i.1 hi)
    rw [← hxi, hf.cok.col_get hlt, hv] at hz
    simp only [Option.getD_some] at hz
    rw [hz]

/-- The point of an assignment that satisfies the model up to tolerances. -/
theorem within_point (hr : ReachableApiW H W n) {sp : StdProb (Option K)} {k : Nat} (hsp : W.m.stdProblem H n = .ok (sp, k))
    {δ ε η : K} (hδ : 0 ≤ δ) {σ : Env (Option K)} (hσ : W.m.AdmissibleWithin δ ε η σ) {q : Minlp (Option K)} (hq : q ∈ sp.prob.views) :
    ∃ ys : List K, q.FeasibleWithin δ ε η (ys.map some) ∧ ys.length = sp.var2index.length ∧
      W.m.minimised (pointOf sp.var2index (ys.map some)) = W.m.minimised σ ∧
      ∀ x, W.m.HasVar x → pointOf sp.var2index (ys.map some) x.id = σ x.id := by
  classical
  obtain ⟨hp, k', comp, e, ps, cols, xes, ves, hf, -, -⟩ := hr.facts hsp
  -- the value of a column
  have hval : ∀ x ∈ cols, ∃ t : K, -(10 ^ 8) - ε ≤ t ∧ t ≤ 10 ^ 8 + ε ∧ (x.id < n → x.evaluate σ = some t) ∧
      ∀ p ∈ ps, p.slack = some x → p.c.residual σ = some t := by
    intro x hx
    by_cases hn : x.id < n
    · obtain ⟨t, h1, h2, h3⟩ := hσ.box x (hf.hasVar hx hn)
      refine ⟨t, h2, h3, fun _ => h1, fun p hp' hs => ?_⟩
      have := (hf.newCol.2 ⟨p, hp', hs⟩).2
      omega
    · obtain ⟨p, hp', hs⟩ := hf.newCol.1 ⟨hx, by omega⟩
      obtain ⟨n', m', -, -, hok⟩ := hf.mf.piece hp'
      have hc : p.c ∈ W.m.constraints := by rw [← hf.mf.cs]; exact List.mem_map.2 ⟨p, hp', rfl⟩
      obtain ⟨a, b, ha, hb, -⟩ := hσ.holds _ hc
      have hkind : p.c.kind ≠ .equal := by rw [Ne, hok.equal, Piece.bnd_slack hs]; simp
      have hnb : ∀ y v, ¬ p.c.Bounds y v := by
        intro y v hb'
        have h1 := (hok.bounds_iff.1 hb').1
        simp [Piece.slack, h1] at hs
      obtain ⟨h1, h2⟩ := hσ.slackBox _ hc hkind hnb a b ha hb
      refine ⟨a - b, h1, h2, fun h => absurd h hn, fun p' hp'' hs' => ?_⟩
      rw [hf.slack_inj hp'' hp' hs' hs]
      simp [Constraint.residual, ha, hb]
  let val : Node (Option K) → K := fun x => if hx : x ∈ cols then (hval x hx).choose else 0
  let ys := cols.map val
  have hys : ys.map some = cols.map fun x => some (val x) := by simp [ys]
  have hspec : ∀ x ∈ cols, -(10 ^ 8) - ε ≤ val x ∧ val x ≤ 10 ^ 8 + ε ∧ (x.id < n → x.evaluate σ = some (val x)) ∧
      ∀ p ∈ ps, p.slack = some x → p.c.residual σ = some (val x) := by
    intro x hx
    simp only [val, dif_pos hx]
    exact (hval x hx).choose_spec
  have hpt : pointOf sp.var2index (ys.map some) = pointEnv cols (ys.map some) := by rw [hf.v2i, pointOf_eq]
  have hget : ∀ x ∈ cols, (ys.map some)[colOf cols x]? = some (some (val x)) := by
    intro x hx
    rw [hys, List.getElem?_map, (hf.cok.col hx).2]; rfl
  have hev : ∀ x ∈ cols, x.evaluate (pointEnv cols (ys.map some)) = some (val x) := by
    intro x hx
    rw [evaluate_col hf.cok hx, hget x hx]; rfl
  have hvar : ∀ x, W.m.HasVar x → x ∈ cols := fun x hx => (hf.mem x).2 (hf.mf.col_of_hasVar neg_one_ne hx)
  have hagree : ∀ x, W.m.HasVar x → pointEnv cols (ys.map some) x.id = σ x.id := by
    intro x hx
    have hxc := hvar x hx
    rw [pointEnv_col hf.cok hxc, hget x hxc]
    have h1 := (hspec x hxc).2.2.1 (hf.mf.old x hx).1
    have hv := hx.1
    cases x <;> simp [Node.isVar] at hv
    simp only [Node.evaluate, Node.id] at h1 ⊢
    cases hs : σ _ with
    | none => rw [hs] at h1; simp at h1
    | some w => rw [hs] at h1; simp only at h1; rw [h1]
  have hres : ∀ c ∈ W.m.constraints, c.residual (pointEnv cols (ys.map some)) = c.residual σ := fun c hc => by
    unfold Constraint.residual
    rw [evaluate_congr_var c.lhs fun x hx ho => hagree x ⟨hx, .inr ⟨c, hc, .inl ho⟩⟩,
      evaluate_congr_var c.rhs fun x hx ho => hagree x ⟨hx, .inr ⟨c, hc, .inr ho⟩⟩]
  have hobj : W.m.minimised (pointEnv cols (ys.map some)) = W.m.minimised σ := by
    unfold Model.minimised
    cases ho : W.m.objective with
    | minimize f => exact evaluate_congr_var _ fun x hx hoc => hagree x ⟨hx, .inl ⟨f, .inl ho, hoc⟩⟩
    | maximize f =>
      simp only
      rw [evaluate_congr_var f fun x hx hoc => hagree x ⟨hx, .inl ⟨f, .inr ho, hoc⟩⟩]
    | empty => rfl
  refine ⟨ys, ?_, by simp [ys, hf.v2i], by rw [hpt]; exact hobj, by rw [hpt]; exact hagree⟩
  rw [hf.within (by simp) (fun c hc => by
    obtain ⟨a, b, h1, h2, -⟩ := hσ.holds c hc
    exact ⟨σ, a - b, by simp [Constraint.residual, h1, h2]⟩) hq]
  refine ⟨by simp [ys], fun p hp' => ?_, ?_, fun x hx hi => ?_⟩
  · have hc : p.c ∈ W.m.constraints := by rw [← hf.mf.cs]; exact List.mem_map.2 ⟨p, hp', rfl⟩
    obtain ⟨n', m', -, -, hok⟩ := hf.mf.piece hp'
    obtain ⟨a, b, ha, hb, hw⟩ := hσ.holds _ hc
    have hd : p.c.residual σ = some (a - b) := by simp [Constraint.residual, ha, hb]
    have hne : p.c.kind ≠ .equal → p.c.kind.Within ε (a - b) 0 := by
      intro hk
      rw [if_neg hk] at hw
      cases hkk : p.c.kind <;> simp only [hkk, CKind.Within] at hw ⊢
      · exact absurd hkk hk
      all_goals linarith
    refine ⟨a - b, (hres _ hc).trans hd, fun hk => ?_, fun x hx => ?_, fun s hs => ?_⟩
    · simpa [hk, CKind.Within] using hw
    · exact hne (by rw [Ne, hok.equal]; simp [Piece.bnd, hx])
    · obtain ⟨hsc, hn⟩ := hf.newCol.2 ⟨p, hp', hs⟩
      have := (hspec s hsc).2.2.2 p hp' hs
      rw [hd] at this
      injection this with this
      refine ⟨a - b, by rw [hev s hsc, this], by simpa using hδ, hne ?_⟩
      rw [Ne, hok.equal, Piece.bnd_slack hs]; simp
  · intro x hx
    obtain ⟨t, ht, rfl⟩ := List.mem_map.1 hx
    obtain ⟨y, hy, rfl⟩ := List.mem_map.1 ht
    exact ⟨_, rfl, (hspec y hy).1, (hspec y hy).2.1⟩
  · by_cases hn : x.id < n
    · obtain ⟨t, z, ht, hle⟩ := hσ.integral x (hf.hasVar hx hn) hi
      refine ⟨t, z, ?_, hle⟩
      rw [hev x hx, ← ht, (hspec x hx).2.2.1 hn]
    · obtain ⟨p, hp', hs⟩ := hf.newCol.1 ⟨hx, by omega⟩
      obtain ⟨n', m', -, -, hok⟩ := hf.mf.piece hp'
      obtain ⟨-, j, str, rfl, -⟩ := hok.slack x hs
      simp [Node.isInteger] at hi

/-- C65: conversely, an assignment that satisfies the equality constraints up to `δ`, the inequality constraints up to `ε` and
integrality up to `η` gives a point that satisfies the standard problem up to these tolerances, with the same value of what is
minimised. -/
theorem C65_point (hr : ReachableApiW H W n) {sp : StdProb (Option K)} {k : Nat} (hsp : W.m.stdProblem H n = .ok (sp, k))
    {δ ε η : K} (hδ : 0 ≤ δ) {σ : Env (Option K)} (hσ : W.m.AdmissibleWithin δ ε η σ) {q : Minlp (Option K)} (hq : q ∈ sp.prob.views) :
    ∃ ys : List K, q.FeasibleWithin δ ε η (ys.map some) ∧ ys.length = sp.var2index.length ∧
      W.m.minimised (pointOf sp.var2index (ys.map some)) = W.m.minimised σ := by
  obtain ⟨ys, h1, h2, h3, -⟩ := within_point hr hsp hδ hσ hq
  exact ⟨ys, h1, h2, h3⟩

/-- C65: if the solver answered with a point that satisfies the standard problem up to tolerances and whose objective value is at
most `γ` above that of every feasible point of the standard problem, then the objective value at the final primals is at most `γ`
worse than that of every assignment that satisfies the constraints and integrality and stays in the box. -/
theorem C65_optimal (hr : ReachableApiW H W n) {solver : SolverFn (Option K)} {mod' : Model (Option K)}
    (h : W.m.solve H solver n = .ok ((.ok (), mod'), m)) {δ ε η γ : K}
    (hs : ∀ sp status sol, W.m.SolvedBy H n solver sp status sol → ∃ q ∈ sp.prob.views, q.NearMinimiser δ ε η γ sol.x)
    {σ : Env (Option K)} (hσ : W.m.Admissible σ) :
    (∀ f w, mod'.objective = .minimize f → f.evaluate σ = some w →
      ∃ v, f.evaluate (mapEnv mod'.finalPrimals) = some v ∧ v ≤ w + γ) ∧
    (∀ f w, mod'.objective = .maximize f → f.evaluate σ = some w →
      ∃ v, f.evaluate (mapEnv mod'.finalPrimals) = some v ∧ w - γ ≤ v) := by
  have key : ∀ w, W.m.minimised σ = some w → ∃ v, W.m.minimised (mapEnv mod'.finalPrimals) = some v ∧ v ≤ w + γ := by
    intro w hw
    obtain ⟨sp, k, hsp, -, hs'⟩ := solve_ok h
    rcases hs' with ⟨e, -, he⟩ | ⟨status, sol, primals, duals, hsol, hx, he⟩ <;> cases he
    obtain ⟨hp, k', comp, e, ps, cols, xes, ves, hf, -, -⟩ := hr.facts hsp
    obtain ⟨q, hq, hm⟩ := hs sp status sol ⟨k, hsp, hsol⟩
    obtain ⟨ys, hfeas, hlen, hobj⟩ := admissible_point hr hsp hσ hq
    have henv : mapEnv primals = pointOf sp.var2index sol.x := by rw [hx.env hf, hf.v2i, pointOf_eq]
    simp only [henv]
    have hlx : sol.x.length = sp.var2index.length := by
      rw [hm.feasible.len, ← hfeas.len, List.length_map, hlen]
    have hnum := hm.feasible.bounds
    obtain ⟨v, hv, hbest⟩ := hm.best
    by_cases hc : (∃ q, sp.prob = .nlp q) ∨ ∃ q, sp.prob = .minlp q
    · have e1 := C26_nonlinear hr hsp hc hq (ops := []) rfl hlx
      have e2 := C26_nonlinear hr hsp hc hq (ops := []) rfl (xs := ys.map some) (by simp [hlen])
      rw [hv] at e1
      injection e1 with e1
      rw [hobj, hw] at e2
      exact ⟨v, e1.symm, hbest _ hfeas w e2⟩
    · have hc' : (∃ q, sp.prob = .lp q) ∨ ∃ q, sp.prob = .milp q := by
        cases hpb : sp.prob <;> simp_all
      obtain ⟨b, hb⟩ := C26_linear hr hsp hc'
      obtain ⟨ts, hts⟩ : ∃ ts : List K, sol.x = ts.map some := by
        refine ⟨sol.x.map fun x => x.getD 0, ?_⟩
        rw [List.map_map]
        refine (List.map_id _).symm.trans (List.map_congr_left fun x hxm => ?_)
        obtain ⟨i, hi⟩ := List.mem_iff_getElem?.1 hxm
        obtain ⟨t, -, -, rfl, -⟩ := hnum i x hi
        rfl
      obtain ⟨v1, e1, e1'⟩ := hb q q hq [] rfl ts (by rw [hts] at hlx; simpa using hlx)
      obtain ⟨v2, e2, e2'⟩ := hb q q hq [] rfl ys hlen
      rw [← hts] at e1 e1'
      rw [hv] at e1
      injection e1 with e1
      subst e1
      rw [hobj, hw] at e2'
      cases v2 with
      | none => simp at e2'
      | some v2 =>
        cases b with
        | none => simp at e2'
        | some b =>
          simp only [Exact.add_some, Option.some.injEq] at e2'
          refine ⟨v + b, by rw [e1']; simp, ?_⟩
          rw [e2']
          have := hbest _ hfeas v2 e2
          linarith
  obtain ⟨hobj', -, -⟩ := (C30_call h).1
  constructor
  · intro f w hf hw
    rw [hobj'] at hf
    have := key w (by simp [Model.minimised, hf, hw])
    simpa [Model.minimised, hf] using this
  · intro f w hf hw
    rw [hobj'] at hf
    obtain ⟨v, hv, hle⟩ := key (-w) (by simp [Model.minimised, hf, hw])
    simp only [Model.minimised, hf] at hv
    cases hfe : f.evaluate (mapEnv mod'.finalPrimals) with
    | none => rw [hfe] at hv; simp at hv
    | some u =>
      rw [hfe] at hv
      simp only [Exact.neg_some, Option.some.injEq] at hv
      exact ⟨u, rfl, by linarith⟩

end

/-- A sufficient check of feasibility up to tolerances, for the examples. -/
def withinCheck (q : Minlp Q) (δ ε η : ℚ) (xs : List Q) : Bool :=
  xs.length == q.nx &&
  q.b.zipIdx.all (fun e => match e.1, total ((rowOf q.a.triplets e.2).map fun t => t.2 *. (xs[t.1]?).getD none) with
    | some t, some y => decide (|y - t| ≤ δ)
    | _, _ => false) &&
  (match q.evaluate xs with
   | .ok q' => q'.buf.f.all fun v => match v with
     | some y => decide (|y| ≤ δ)
     | none => false
   | .error _ => false) &&
  xs.zipIdx.all (fun e => match e.1, q.l[e.2]?, q.u[e.2]? with
    | some t, some (some lo), some (some up) => decide (lo - ε ≤ t ∧ t ≤ up + ε)
    | _, _, _ => false) &&
  q.p.zipIdx.all (fun e => !e.1 || match xs[e.2]? with
    | some (some t) => decide (|t - ((t + 1 / 2).floor : ℚ)| ≤ η)
    | _ => false)

theorem withinCheck_sound {q : Minlp Q} {δ ε η : ℚ} {xs : List Q} (h : withinCheck q δ ε η xs = true) :
    q.FeasibleWithin δ ε η xs := by
  simp only [withinCheck, Bool.and_eq_true, beq_iff_eq, List.all_eq_true] at h
  obtain ⟨⟨⟨⟨h1, h2⟩, h3⟩, h4⟩, h5⟩ := h
  refine ⟨h1, fun i v hv => ?_, ?_, fun i x hx => ?_, fun i hi => ?_⟩
  · have := h2 (v, i) (List.mem_zipIdx_iff_getElem?.2 hv)
    revert this
    simp only
    split
    · rename_i t y ht
      intro hle
      exact ⟨t, y, rfl, ht, by simpa using hle⟩
    · simp
  · revert h3
    cases q.evaluate xs with
    | error p => simp
    | ok q' =>
      intro h3
      refine ⟨q', rfl, fun v hv => ?_⟩
      have := List.all_eq_true.1 h3 v hv
      cases v with
      | none => simp at this
      | some y => exact ⟨y, rfl, by simpa using this⟩
  · have := h4 (x, i) (List.mem_zipIdx_iff_getElem?.2 hx)
    revert this
    simp only
    split
    · rename_i t lo up hx' h2 h3
      intro ht
      simp only [decide_eq_true_eq] at ht
      exact ⟨_, _, _, rfl, h2, h3, ht.1, ht.2⟩
    · simp
  · have := h5 (true, i) (List.mem_zipIdx_iff_getElem?.2 hi)
    revert this
    simp only [Bool.not_true, Bool.false_or]
    split
    · rename_i t ht
      intro h'
      exact ⟨t, _, ht, by simpa using h'⟩
    · simp

theorem viewOf_within {cmds : List (Cmd Q)} {δ ε η : ℚ} {xs : List Q} (h : (viewOf cmds).any (fun q => withinCheck q δ ε η xs) = true) :
    ∃ sp m q, (worldOf cmds).m.stdProblem HashOrder.listOrder (wcount cmds) = .ok (sp, m) ∧ q ∈ sp.prob.views ∧
      q.FeasibleWithin δ ε η xs := by
  cases hq : viewOf cmds with
  | none => rw [hq] at h; cases h
  | some q =>
  rw [hq] at h
  have hc : withinCheck q δ ε η xs = true := h
  obtain ⟨sp, m, h1, h2⟩ := viewOf_some hq
  exact ⟨sp, m, q, h1, h2, withinCheck_sound hc⟩

/-- The model `minimize x subject to x + y <= 5 ("a"), x - y == 1 ("b"), x >= 2 ("c")` with `y` integer. -/
def exTol : List (Cmd Q) := [.expr (.var "x" .continuous), .expr (.var "y" .integer), .expr (.add 0 1), .expr (.sub 0 1),
  .cmpNodeScalar .lessEqual 2 (some 5) "a", .cmpNodeScalar .equal 3 (some 1) "b", .cmpNodeScalar .greaterEqual 0 (some 2) "c",
  .addConstraints [0, 1, 2], .minimize 0]

/-- An answer for `exTol` that is off by 1/1000 in both rows, in the bound of the slack and in the integrality of `y`. -/
def exTolSol : Sol Q := ⟨[some (1/1000), some (30015/10000), some (20005/10000)], [some 0, some 0], [], [some 0, some 0, some 0],
  [some 0, some 0, some 0]⟩

/-- Non-vacuity of C65, and its bounds are attained: the answer is accepted, it satisfies the standard problem up to 1/1000, and the
violations at the final primals are 2/1000 for the inequality "a" and 1/1000 for the equality "b". -/
example : ReachableApiW HashOrder.listOrder (worldOf exTol) (wcount exTol) ∧
    (∀ sp status sol, (worldOf exTol).m.SolvedBy HashOrder.listOrder (wcount exTol) (constSolver .solved exTolSol) sp status sol →
      ∃ q ∈ sp.prob.views, q.FeasibleWithin (1/1000) (1/1000) (1/1000) sol.x) ∧
    (let W := worldOf (exTol ++ [.solve (constSolver .solved exTolSol)])
     W.result = some (.ok ()) ∧ W.m.constraints.map (fun c => c.violation (mapEnv W.m.finalPrimals)) = [some (2/1000), some (1/1000), some 0]) := by
  refine ⟨runsW_reachable (by decide +kernel) (by decide +kernel), ?_, by decide +kernel, by decide +kernel⟩
  rintro sp status sol ⟨k, hsp, hsol⟩
  obtain ⟨sp', m', q, h1, h2, h3⟩ := viewOf_within (cmds := exTol) (δ := 1/1000) (ε := 1/1000) (η := 1/1000) (xs := exTolSol.x)
    (by decide +kernel)
  rw [h1] at hsp
  cases hsp
  cases hsol
  exact ⟨q, h2, h3⟩

/-- Non-vacuity of C65, optimality and converse: for `minimize x subject to x >= 2, x <= 5` the answer `x = 2001/1000` is a minimiser
up to 1/1000, and the assignment `x = 1999/1000` is admissible up to 1/1000. -/
example : (∀ sp status sol, (worldOf exLp).m.SolvedBy HashOrder.listOrder (wcount exLp)
      (constSolver .solved ⟨[some (2001/1000)], [], [], [some 0], [some 1]⟩) sp status sol →
      ∃ q ∈ sp.prob.views, q.NearMinimiser 0 0 0 (1/1000) sol.x) ∧
    (worldOf exLp).m.AdmissibleWithin 0 (1/1000) 0 (envOf [(0, 1999/1000)]) := by
  have hr : ReachableApiW HashOrder.listOrder (worldOf exLp) (wcount exLp) := runsW_reachable (by decide +kernel) (by decide +kernel)
  obtain ⟨sp, m, q, h1, h2, h3⟩ := viewOf_within (cmds := exLp) (δ := 0) (ε := 0) (η := 0) (xs := [some (2001/1000)]) (by decide +kernel)
  have hv2i : sp.var2index = [(.var 0 "x" .continuous, 0)] := by
    have : (resultOf ((worldOf exLp).m.stdProblem HashOrder.listOrder) (wcount exLp)).map (·.var2index) =
      some [(.var 0 "x" .continuous, 0)] := by decide +kernel
    simpa [resultOf, h1] using this
  have hprob : ∃ p, sp.prob = .lp p := by
    have : (resultOf ((worldOf exLp).m.stdProblem HashOrder.listOrder) (wcount exLp)).map
      (fun sp => match sp.prob with | .lp _ => true | _ => false) = some true := by decide +kernel
    simp only [resultOf, h1, Option.map_some, Option.some.injEq] at this
    cases hp : sp.prob <;> rw [hp] at this <;> simp at this ⊢
  have hl : ∀ q ∈ sp.prob.views, q.l[0]? = some (some 2) := by
    have : (resultOf ((worldOf exLp).m.stdProblem HashOrder.listOrder) (wcount exLp)).map
      (fun sp => sp.prob.views.all fun q => decide (q.l[0]? = some (some 2))) = some true := by decide +kernel
    simpa [resultOf, h1] using this
  have hobj : ∀ t : ℚ, (worldOf exLp).m.minimised (pointOf sp.var2index [some t]) = some t := by
    intro t
    have : (worldOf exLp).m.objective = .minimize (.var 0 "x" .continuous) := by decide +kernel
    simp [Model.minimised, this, hv2i, pointOf, Node.evaluate, Node.id]
  constructor
  · rintro sp' status sol ⟨k, hsp, hsol⟩
    rw [h1] at hsp
    cases hsp
    cases hsol
    refine ⟨q, h2, h3, ?_⟩
    obtain ⟨b, hb⟩ := C26_linear hr h1 (.inl hprob)
    obtain ⟨v, hv, hv'⟩ := hb q q h2 [] rfl [2001/1000] (by rw [hv2i]; rfl)
    rw [List.map_cons, List.map_nil, hobj] at hv'
    cases v with
    | none => simp at hv'
    | some v =>
      cases b with
      | none => simp at hv'
      | some b =>
        refine ⟨v, hv, fun ys hys w hw => ?_⟩
        have hlen := hys.len
        rw [(C22_bijection hr.reachable h1).1 q h2, hv2i] at hlen
        obtain ⟨y, rfl⟩ := List.length_eq_one_iff.1 hlen
        obtain ⟨t, lo, up, rfl, hlo, -, hle, -⟩ := hys.bounds 0 y rfl
        rw [hl q h2] at hlo
        simp only [Option.some.injEq] at hlo
        obtain ⟨v2, e2, e2'⟩ := hb q q h2 [] rfl [t] (by rw [hv2i]; rfl)
        rw [List.map_cons, List.map_nil] at e2 e2'
        rw [hobj] at e2'
        rw [e2] at hw
        injection hw with hw
        subst hw
        simp only [Exact.add_some, Option.some.injEq] at hv' e2'
        linarith
  · have hvar : ∀ x, (worldOf exLp).m.HasVar x → x = .var 0 "x" .continuous := by
      intro x hx
      obtain ⟨-, i, hi⟩ := (C22_variables hr.reachable h1 neg_one_ne x).1 hx
      rw [hv2i] at hi
      simp only [List.mem_singleton, Prod.mk.injEq] at hi
      exact hi.1
    have hcs : ∀ c ∈ (worldOf exLp).m.constraints, c.lhs.evaluate (envOf [(0, 1999/1000)]) = some (1999/1000) ∧
        (c.kind = .greaterEqual ∧ c.rhs.evaluate (envOf [(0, 1999/1000)]) = some 2 ∨
         c.kind = .lessEqual ∧ c.rhs.evaluate (envOf [(0, 1999/1000)]) = some 5) := by decide +kernel
    refine ⟨fun c hc => ?_, fun x hx hi => ?_, fun x hx => ?_, fun c hc _ _ a b ha hb => ?_⟩
    · obtain ⟨e1, ⟨e2, e3⟩ | ⟨e2, e3⟩⟩ := hcs c hc
      · exact ⟨_, _, e1, e3, by simp only [e2, CKind.Within, reduceCtorEq, if_false]; norm_num⟩
      · exact ⟨_, _, e1, e3, by simp only [e2, CKind.Within, reduceCtorEq, if_false]; norm_num⟩
    · rw [hvar x hx] at hi; simp [Node.isInteger] at hi
    · rw [hvar x hx]
      exact ⟨1999/1000, by decide +kernel, by norm_num, by norm_num⟩
    · obtain ⟨e1, e2⟩ := hcs c hc
      rw [ha] at e1
      rw [hb] at e2
      simp only [Option.some.injEq] at e1 e2
      subst e1
      rcases e2 with ⟨-, rfl⟩ | ⟨-, rfl⟩ <;> norm_num

end Verif
