import Verif.Proofs.EvalDeriv

/-! # Property C28: what evaluating the standard problem computes -/

namespace Verif

set_option linter.unusedSectionVars false
set_option linter.unusedSimpArgs false

section
variable {F : Type} [FloatOps F] {H : HashOrder} {W : World F} {n m : Nat} {sp : StdProb F}

/-- C28, history independence: whatever was called on two copies of the problem before, evaluating both at the same point with one entry
per column succeeds, and everything the two deliver is the same (a zero-size Jacobian or an empty Hessian counts as such). -/
theorem C28_history (hr : ReachableW H W n) (h : W.m.stdProblem H n = .ok (sp, m)) {q q1 q2 : Minlp F} (hq : q ∈ sp.prob.views)
    {ops1 ops2 : List (ProbOp F)} (h1 : runProb q ops1 = .ok q1) (h2 : runProb q ops2 = .ok q2) {xs : List F}
    (hx : xs.length = sp.var2index.length) :
    ∃ r1 r2, q1.evaluate xs = .ok r1 ∧ q2.evaluate xs = .ok r2 ∧ r1.buf.phi = r2.buf.phi ∧ r1.buf.gphi = r2.buf.gphi ∧
      r1.buf.f = r2.buf.f ∧ r1.buf.h = r2.buf.h ∧ r1.buf.j.triplets = r2.buf.j.triplets ∧ r1.buf.hphi.triplets = r2.buf.hphi.triplets := by
  obtain ⟨hp, k, comp, e, ps, cols, xes, ves, hf, -⟩ := hr.facts h
  have hlen : xs.length = cols.length := by rw [hx, hf.v2i]; simp
  rcases hf.life with ⟨-, -, hi⟩ | ⟨-, -, hi⟩
  · have i1 := (hi q hq).run h1
    have i2 := (hi q hq).run h2
    rw [i1.evaluate (by simp [stdC, hlen]), i2.evaluate (by simp [stdC, hlen])]
    refine ⟨_, _, rfl, rfl, rfl, rfl, ?_, ?_, ?_, ?_⟩
    · simp only; rw [i1.f, i2.f]
    · simp only; rw [i1.h, i2.h]
    · simp only; rw [i1.j.2, i2.j.2]
    · simp only; rw [i1.hphi, i2.hphi]
  · have i1 := (hi q hq).run hf.cok hf.cmpOk hf.vesP h1
    have i2 := (hi q hq).run hf.cok hf.cmpOk hf.vesP h2
    rw [i1.evaluate hf.cok hf.cmpOk hf.vesP (by omega), i2.evaluate hf.cok hf.cmpOk hf.vesP (by omega)]
    exact ⟨_, _, rfl, rfl, rfl, rfl, rfl, rfl, rfl, rfl⟩

end

section
variable {K : Type} [Field K] [LinearOrder K] [IsStrictOrderedRing K] [Trig K]
variable {H : HashOrder} {W : World (Option K)} {n m : Nat} {sp : StdProb (Option K)}

/-- What evaluating a problem with these facts gives. -/
theorem SpFacts.values {l : Level} {hp : Heap (Option K)} {mod : Model (Option K)} {comp : ModelComp (Option K)} {e : Node (Option K)}
    {ps : List (Piece (Option K))} {cols : List (Node (Option K))} {xes : List (Node (Option K) × Option K)} {ves : List (Node (Option K) × Nat)}
    (hf : SpFacts H l hp n m mod comp e ps cols xes ves sp)
    (hc : (∃ q, sp.prob = .nlp q) ∨ ∃ q, sp.prob = .minlp q) {q q' : Minlp (Option K)} (hq : q ∈ sp.prob.views)
    {ops : List (ProbOp (Option K))} (hops : runProb q ops = .ok q') {xs : List (Option K)} (hx : xs.length = sp.var2index.length) :
    ∃ r, q'.evaluate xs = .ok r ∧ r.buf.phi = mod.minimised (pointOf sp.var2index xs) ∧
      r.buf.f.length = sp.jindex2constr.length ∧
      ∀ k c, (k, c) ∈ sp.jindex2constr → r.buf.f[k]? = some (sp.nlRow n k c (pointOf sp.var2index xs)) := by
  have hlen : xs.length = cols.length := by rw [hx, hf.v2i]; simp
  rcases hf.life with ⟨-, hl, -⟩ | ⟨-, -, hi⟩
  · rcases hl with ⟨a, ha⟩ | ⟨a, ha⟩ <;> rcases hc with ⟨b, hb⟩ | ⟨b, hb⟩ <;> rw [ha] at hb <;> cases hb
  · have hi' := (hi q hq).run hf.cok hf.cmpOk hf.vesP hops
    rw [hi'.evaluate hf.cok hf.cmpOk hf.vesP (by omega)]
    obtain ⟨k1, k2, hk⟩ := hf.mf.objComp
    obtain ⟨kc, -, hch⟩ := hf.mf.chain
    refine ⟨_, rfl, ?_, ?_, ?_⟩
    · simp only [evalBuf, (stdComponents_prop hk).1, hf.v2i, pointOf_eq, hf.mf.objVal]
    · simp [evalBuf, hf.mf.f_eq, hf.jindex]
    · intro k c hkc
      simp only [hf.jindex, List.mem_map, List.mem_filter, Prod.mk.injEq] at hkc
      obtain ⟨p, ⟨hp', hnl⟩, rfl, rfl⟩ := hkc
      simp only [evalBuf, hf.mf.f_eq]
      rw [List.getElem?_map, List.getElem?_map, hch.at hp' hnl, hf.nlRow_eq hp' hnl, hf.v2i, pointOf_eq]
      rfl

/-- C28, values, Nlp and Minlp: after any history of calls, evaluating at a point with one entry per column gives as `phi` the value of
what the model minimises, and as `f` one value per nonlinear row, that of `lhs - rhs` minus the slack of the row. -/
theorem C28_values (hr : ReachableApiW H W n) (h : W.m.stdProblem H n = .ok (sp, m))
    (hc : (∃ q, sp.prob = .nlp q) ∨ ∃ q, sp.prob = .minlp q) {q q' : Minlp (Option K)} (hq : q ∈ sp.prob.views)
    {ops : List (ProbOp (Option K))} (hops : runProb q ops = .ok q') {xs : List (Option K)} (hx : xs.length = sp.var2index.length) :
    ∃ r, q'.evaluate xs = .ok r ∧ r.buf.phi = W.m.minimised (pointOf sp.var2index xs) ∧
      r.buf.f.length = sp.jindex2constr.length ∧
      ∀ k c, (k, c) ∈ sp.jindex2constr → r.buf.f[k]? = some (sp.nlRow n k c (pointOf sp.var2index xs)) := by
  obtain ⟨hp, k, comp, e, ps, cols, xes, ves, hf, -, hg⟩ := hr.facts h
  exact hf.values hc hq hops hx

end

/-- No quotient of the objective or of a constraint has the same node as numerator and denominator. -/
def Model.NoSelfDiv {F : Type} (mod : Model F) : Prop :=
  (∀ f, mod.objective = .minimize f ∨ mod.objective = .maximize f → Verif.NoSelfDiv f) ∧
  ∀ c ∈ mod.constraints, Verif.NoSelfDiv c.lhs ∧ Verif.NoSelfDiv c.rhs

section
variable {H : HashOrder} {W : World (Option ℝ)} {n m : Nat} {sp : StdProb (Option ℝ)}

theorem ReachableApiW.factsNoSelf (hr : ReachableApiW H W n) (hs : W.m.NoSelfDiv) (h : W.m.stdProblem H n = .ok (sp, m)) :
    ∃ hp k comp e ps cols xes ves, SpFacts H .noSelf hp n k W.m comp e ps cols xes ves sp := by
  obtain ⟨h0, hw⟩ := hr.inv
  have hm : ModelGood .noSelf h0 W.m := ⟨fun f hf => (hw.model.min f hf).strengthen (hs.1 f (.inl hf)),
    fun f hf => (hw.model.max f hf).strengthen (hs.1 f (.inr hf)),
    fun c hc => ⟨(hw.model.cs c hc).1.strengthen (hs.2 c hc).1, (hw.model.cs c hc).2.strengthen (hs.2 c hc).2⟩⟩
  obtain ⟨h1, -, -, -, k, comp, e, ps, cols, xes, ves, hf, -⟩ := spec_stdProblem (H := H) hw.heap hm hw.initNd sp m h
  exact ⟨h1, k, comp, e, ps, cols, xes, ves, hf⟩

/-- What evaluating a problem with these facts gives. -/
theorem SpFacts.gradients {hp : Heap (Option ℝ)} {mod : Model (Option ℝ)} {comp : ModelComp (Option ℝ)} {e : Node (Option ℝ)}
    {ps : List (Piece (Option ℝ))} {cols : List (Node (Option ℝ))} {xes : List (Node (Option ℝ) × Option ℝ)} {ves : List (Node (Option ℝ) × Nat)}
    (hf : SpFacts H .noSelf hp n m mod comp e ps cols xes ves sp)
    (hc : (∃ q, sp.prob = .nlp q) ∨ ∃ q, sp.prob = .minlp q) {q q' : Minlp (Option ℝ)} (hq : q ∈ sp.prob.views)
    {ops : List (ProbOp (Option ℝ))} (hops : runProb q ops = .ok q') {ts : List ℝ} (hx : ts.length = sp.var2index.length)
    {σ : Env (Option ℝ)} (hσ : σ = pointOf sp.var2index (ts.map some)) (hd : ∃ v, mod.minimised σ = some v) :
    ∃ r, q'.evaluate (ts.map some) = .ok r ∧
      (∀ (x : Node (Option ℝ)) (i : Nat) (t : ℝ), (x, i) ∈ sp.var2index → ts[i]? = some t →
        ∃ g, r.buf.gphi[i]? = some (some g) ∧ HasDerivAt (alongVar mod.minimised x σ) g t) ∧
      (∀ (x y : Node (Option ℝ)) (i j : Nat) (t : ℝ), (x, i) ∈ sp.var2index → (y, j) ∈ sp.var2index → j ≤ i → ts[j]? = some t →
        ∃ g, r.buf.hphi.dense i j = some g ∧ HasDerivAt (fun t => partialAlong mod.minimised x (σ.set y.id (some t))) g t) ∧
      ∀ t ∈ r.buf.hphi.triplets, t.2.1 ≤ t.1 := by
  have hlen : ts.length = cols.length := by rw [hx, hf.v2i]; simp
  rcases hf.life with ⟨-, hl, -⟩ | ⟨-, -, hi⟩
  · rcases hl with ⟨a, ha⟩ | ⟨a, ha⟩ <;> rcases hc with ⟨b, hb⟩ | ⟨b, hb⟩ <;> rw [ha] at hb <;> cases hb
  have hi' := (hi q hq).run hf.cok hf.cmpOk hf.vesP hops
  rw [hi'.evaluate hf.cok hf.cmpOk hf.vesP (by simp; omega)]
  rw [hf.v2i, pointOf_eq] at hσ
  subst hσ
  have hmin : mod.minimised = rowVal e none := by
    funext σ
    exact (hf.mf.objVal σ).symm
  have hd' : Defined e (pointEnv cols (ts.map some)) := by rw [hmin] at hd; exact hd
  have hval : ∀ (x : Node (Option ℝ)) (i : Nat) (t : ℝ), cols[i]? = some x → ts[i]? = some t → pointEnv cols (ts.map some) x.id = some (some t) := by
    intro x i t hx ht
    obtain ⟨hi, hxi⟩ := List.getElem?_eq_some_iff.1 hx
    rw [pointEnv_col hf.cok (List.mem_of_getElem? hx), ← hxi, hf.cok.col_get hi, List.getElem?_map, ht]; rfl
  refine ⟨_, rfl, ?_, ?_, hess_lower⟩
  · intro x i t hx ht
    rw [hf.mem_v2i] at hx
    refine ⟨numD (pointEnv cols (ts.map some)) x e, ?_, ?_⟩
    · simp only [evalBuf]
      rw [List.getElem?_map, hx, Option.map_some, hf.gphi_entry hd' (List.mem_of_getElem? hx)]
    · rw [hmin]
      have := rowVal_hasDerivAt (s := none) (hf.cok.var _ (List.mem_of_getElem? hx)) (hval x i t hx ht) hd' (by simp)
      simpa [slackD] using this
  · intro x y i j t hx hy hij ht
    rw [hf.mem_v2i] at hx hy
    obtain ⟨s, hts⟩ : ∃ s, ts[i]? = some s := by
      rw [← Option.isSome_iff_exists]
      have := (List.getElem?_eq_some_iff.1 hx).1
      simp [hlen, this]
    refine ⟨numD2 (pointEnv cols (ts.map some)) x y e, ?_, ?_⟩
    · simp only [evalBuf]
      exact hf.hphi_entry hd' hx hy hij (hval x i s hx hts) (hval y j t hy ht) _ _
    · rw [hmin]
      exact rowVal_hasDerivAt2 (hf.cok.var _ (List.mem_of_getElem? hx)) (hf.cok.var _ (List.mem_of_getElem? hy)) (hval x i s hx hts)
        (hval y j t hy ht) hd' (by simp)

/-- C28, derivatives of the objective, Nlp and Minlp: after any history of calls, evaluating at a point of numbers where the objective has
a value gives the gradient, one entry for each column, and the lower triangle of the Hessian; it has no entry above the diagonal. What is
missing: objectives with a quotient of a node by itself, for which the statement is false (C07). -/
theorem C28_objective_partial (hr : ReachableApiW H W n) (hs : W.m.NoSelfDiv) (h : W.m.stdProblem H n = .ok (sp, m))
    (hc : (∃ q, sp.prob = .nlp q) ∨ ∃ q, sp.prob = .minlp q) {q q' : Minlp (Option ℝ)} (hq : q ∈ sp.prob.views)
    {ops : List (ProbOp (Option ℝ))} (hops : runProb q ops = .ok q') {ts : List ℝ} (hx : ts.length = sp.var2index.length)
    {σ : Env (Option ℝ)} (hσ : σ = pointOf sp.var2index (ts.map some)) (hd : ∃ v, W.m.minimised σ = some v) :
    ∃ r, q'.evaluate (ts.map some) = .ok r ∧
      (∀ (x : Node (Option ℝ)) (i : Nat) (t : ℝ), (x, i) ∈ sp.var2index → ts[i]? = some t →
        ∃ g, r.buf.gphi[i]? = some (some g) ∧ HasDerivAt (alongVar W.m.minimised x σ) g t) ∧
      (∀ (x y : Node (Option ℝ)) (i j : Nat) (t : ℝ), (x, i) ∈ sp.var2index → (y, j) ∈ sp.var2index → j ≤ i → ts[j]? = some t →
        ∃ g, r.buf.hphi.dense i j = some g ∧ HasDerivAt (fun t => partialAlong W.m.minimised x (σ.set y.id (some t))) g t) ∧
      ∀ t ∈ r.buf.hphi.triplets, t.2.1 ≤ t.1 := by
  obtain ⟨hp, k', comp, e, ps, cols, xes, ves, hf⟩ := hr.factsNoSelf hs h
  exact hf.gradients hc hq hops hx hσ hd

/-- What evaluating a problem with these facts gives. -/
theorem SpFacts.rowDerivs {hp : Heap (Option ℝ)} {mod : Model (Option ℝ)} {comp : ModelComp (Option ℝ)} {e : Node (Option ℝ)}
    {ps : List (Piece (Option ℝ))} {cols : List (Node (Option ℝ))} {xes : List (Node (Option ℝ) × Option ℝ)} {ves : List (Node (Option ℝ) × Nat)}
    (hf : SpFacts H .noSelf hp n m mod comp e ps cols xes ves sp)
    (hc : (∃ q, sp.prob = .nlp q) ∨ ∃ q, sp.prob = .minlp q) {q q' : Minlp (Option ℝ)} (hq : q ∈ sp.prob.views)
    {ops : List (ProbOp (Option ℝ))} (hops : runProb q ops = .ok q') {ts : List ℝ} (hx : ts.length = sp.var2index.length)
    {σ : Env (Option ℝ)} (hσ : σ = pointOf sp.var2index (ts.map some)) {k : Nat} {c : Constraint (Option ℝ)}
    (hkc : (k, c) ∈ sp.jindex2constr) (hd : ∃ v, sp.nlRow n k c σ = some v) :
    ∃ r hk, q'.evaluate (ts.map some) = .ok r ∧ r.buf.h[k]? = some hk ∧ r.buf.h.length = sp.jindex2constr.length ∧
      (∀ (x : Node (Option ℝ)) (i : Nat) (t : ℝ), (x, i) ∈ sp.var2index → ts[i]? = some t →
        ∃ g, r.buf.j.dense k i = some g ∧ HasDerivAt (alongVar (sp.nlRow n k c) x σ) g t) ∧
      (∀ (x y : Node (Option ℝ)) (i j : Nat) (t : ℝ), (x, i) ∈ sp.var2index → (y, j) ∈ sp.var2index → j ≤ i → ts[j]? = some t →
        ∃ g, hk.dense i j = some g ∧ HasDerivAt (fun t => partialAlong (sp.nlRow n k c) x (σ.set y.id (some t))) g t) ∧
      ∀ t ∈ hk.triplets, t.2.1 ≤ t.1 := by
  have hlen : ts.length = cols.length := by rw [hx, hf.v2i]; simp
  rcases hf.life with ⟨-, hl, -⟩ | ⟨-, -, hi⟩
  · rcases hl with ⟨a, ha⟩ | ⟨a, ha⟩ <;> rcases hc with ⟨b, hb⟩ | ⟨b, hb⟩ <;> rw [ha] at hb <;> cases hb
  have hi' := (hi q hq).run hf.cok hf.cmpOk hf.vesP hops
  rw [hi'.evaluate hf.cok hf.cmpOk hf.vesP (by simp; omega)]
  rw [hf.v2i, pointOf_eq] at hσ
  subst hσ
  have hkc' := hkc
  simp only [hf.jindex, List.mem_map, List.mem_filter, Prod.mk.injEq] at hkc'
  obtain ⟨p, ⟨hp', hnl⟩, rfl, rfl⟩ := hkc'
  obtain ⟨n', m', -, -, hok⟩ := hf.mf.piece hp'
  obtain ⟨kc, -, hch⟩ := hf.mf.chain
  have hrow : sp.nlRow n p.jrow p.c = rowVal p.exp p.slack := by
    funext σ
    rw [hf.nlRow_eq hp' hnl, hok.fn_val hnl]
  have hd' : Defined p.exp (pointEnv cols (ts.map some)) := by
    rw [hrow] at hd
    obtain ⟨v, hv⟩ := hd
    unfold rowVal at hv
    split at hv
    · cases he : p.exp.evaluate (pointEnv cols (ts.map some)) with
      | none => rw [he] at hv; simp at hv
      | some w => exact ⟨w, he⟩
    · exact ⟨v, hv⟩
  have hval : ∀ (x : Node (Option ℝ)) (i : Nat) (t : ℝ), cols[i]? = some x → ts[i]? = some t → pointEnv cols (ts.map some) x.id = some (some t) := by
    intro x i t hx ht
    obtain ⟨hi, hxi⟩ := List.getElem?_eq_some_iff.1 hx
    rw [pointEnv_col hf.cok (List.mem_of_getElem? hx), ← hxi, hf.cok.col_get hi, List.getElem?_map, ht]; rfl
  have hget : ∀ i : Nat, i < cols.length → ∃ s, ts[i]? = some s := fun i hi => by
    rw [← Option.isSome_iff_exists]; simp [hlen, hi]
  have hsl : ∀ s', p.slack = some s' → s'.isVar = true ∧ ∃ u, pointEnv cols (ts.map some) s'.id = some (some u) := by
    intro s' hs'
    have hm := MFacts.slackCol hf hp' hs'
    obtain ⟨i, hi⟩ := List.mem_iff_getElem?.1 hm
    obtain ⟨u, hu⟩ := hget i (List.getElem?_eq_some_iff.1 hi).1
    exact ⟨hf.cok.var _ hm, u, hval s' i u hi hu⟩
  refine ⟨_, valMat cols.length cols.length (hessP cols p.comp.hphi) (pointEnv cols (ts.map some)), rfl, ?_, ?_, ?_, ?_, hess_lower⟩
  · simp only [evalBuf, hf.mf.h_eq]
    rw [List.getElem?_map, List.getElem?_map, hch.at hp' hnl]
    rfl
  · simp [evalBuf, hf.mf.h_eq, hf.jindex]
  · intro x i t hx ht
    rw [hf.mem_v2i] at hx
    refine ⟨_, hf.jac_entry hp' hnl hd' hx _ _, ?_⟩
    rw [hrow]
    exact rowVal_hasDerivAt (hf.cok.var _ (List.mem_of_getElem? hx)) (hval x i t hx ht) hd' hsl
  · intro x y i j t hx hy hij ht
    rw [hf.mem_v2i] at hx hy
    obtain ⟨s, hts⟩ := hget i (List.getElem?_eq_some_iff.1 hx).1
    refine ⟨_, hf.hess_entry hp' hd' hx hy hij (hval x i s hx hts) (hval y j t hy ht) _ _, ?_⟩
    rw [hrow]
    exact rowVal_hasDerivAt2 (hf.cok.var _ (List.mem_of_getElem? hx)) (hf.cok.var _ (List.mem_of_getElem? hy)) (hval x i s hx hts)
      (hval y j t hy ht) hd' hsl

/-- C28, derivatives of the nonlinear rows, Nlp and Minlp: after any history of calls, evaluating at a point of numbers where the row has
a value gives in the Jacobian the derivatives of the row, one entry for each column, and in the Hessian of the row the lower triangle of
its second derivatives; it has no entry above the diagonal. What is missing: as for the objective. -/
theorem C28_rows_partial (hr : ReachableApiW H W n) (hs : W.m.NoSelfDiv) (h : W.m.stdProblem H n = .ok (sp, m))
    (hc : (∃ q, sp.prob = .nlp q) ∨ ∃ q, sp.prob = .minlp q) {q q' : Minlp (Option ℝ)} (hq : q ∈ sp.prob.views)
    {ops : List (ProbOp (Option ℝ))} (hops : runProb q ops = .ok q') {ts : List ℝ} (hx : ts.length = sp.var2index.length)
    {σ : Env (Option ℝ)} (hσ : σ = pointOf sp.var2index (ts.map some)) {k : Nat} {c : Constraint (Option ℝ)}
    (hkc : (k, c) ∈ sp.jindex2constr) (hd : ∃ v, sp.nlRow n k c σ = some v) :
    ∃ r hk, q'.evaluate (ts.map some) = .ok r ∧ r.buf.h[k]? = some hk ∧ r.buf.h.length = sp.jindex2constr.length ∧
      (∀ (x : Node (Option ℝ)) (i : Nat) (t : ℝ), (x, i) ∈ sp.var2index → ts[i]? = some t →
        ∃ g, r.buf.j.dense k i = some g ∧ HasDerivAt (alongVar (sp.nlRow n k c) x σ) g t) ∧
      (∀ (x y : Node (Option ℝ)) (i j : Nat) (t : ℝ), (x, i) ∈ sp.var2index → (y, j) ∈ sp.var2index → j ≤ i → ts[j]? = some t →
        ∃ g, hk.dense i j = some g ∧ HasDerivAt (fun t => partialAlong (sp.nlRow n k c) x (σ.set y.id (some t))) g t) ∧
      ∀ t ∈ hk.triplets, t.2.1 ≤ t.1 := by
  obtain ⟨hp, k', comp, e, ps, cols, xes, ves, hf⟩ := hr.factsNoSelf hs h
  exact hf.rowDerivs hc hq hops hx hσ hkc hd

end

/-- What the example delivers at a point, after an evaluation elsewhere. -/
def exEval (xs : List Q) : Option (EvalBuf Q) :=
  exSp.bind fun sp => sp.prob.views[0]?.bind fun q =>
    match runProb q [.evaluate [some 5, some 6, some 7, some 8]] with
    | .ok q' => (match q'.evaluate xs with
      | .ok r => some r.buf
      | .error _ => none)
    | .error _ => none

/-- Non-vacuity of C28 over exact rationals: after an evaluation elsewhere the example delivers, at `_s_a0_ = -1, _s_j0_ = 2, x = 1, y = 3`,
the objective `x + y`, its gradient, the row `x*y - 1 - _s_j0_ = 0` with the derivatives `3, 1, -1` and the Hessian entry for (y, x). -/
example : (exEval [some (-1), some 2, some 1, some 3]).map (·.phi) = some (some 4) ∧
    (exEval [some (-1), some 2, some 1, some 3]).map (·.gphi) = some [some 0, some 0, some 1, some 1] ∧
    (exEval [some (-1), some 2, some 1, some 3]).map (·.f) = some [some 0] ∧
    (exEval [some (-1), some 2, some 1, some 3]).map (·.j.triplets) = some [(0, 2, some 3), (0, 3, some 1), (0, 1, some (-1))] ∧
    (exEval [some (-1), some 2, some 1, some 3]).map (·.hphi.triplets) = some [] ∧
    (exEval [some (-1), some 2, some 1, some 3]).map (·.h.map Coo.triplets) = some [[(3, 2, some 1)]] := by
  refine ⟨?_, ?_, ?_, ?_, ?_, ?_⟩ <;> decide +kernel

/-- The standard components of `sin(x)` over the reals. -/
theorem sin_components (H : HashOrder) (s : String) (n : Nat) :
    ∃ c m, (Node.sin 1 (.var 0 s .continuous) : Node (Option ℝ)).stdComponents H n = .ok (c, m) := by
  let x : Node (Option ℝ) := .var 0 s .continuous
  simp only [Node.stdComponents, Node.stdProperties, Bool.false_eq_true, if_false, List.map_cons, List.map_nil]
  rw [M.bind_ok_eq (iter_single _ _ _)]
  have hd : ∃ d k, derivatives H (Node.sin 1 x) [x] (n + 1) = .ok ([(x, .cos d x)], k) := by
    rw [derivatives_single rfl]
    simp [x, dfs, endsAt, Node.ptrEq, Node.tag, Node.id, pathSum, pathProd, partialN, M.bind, cosN, mulN, mulCL, addN,
      Node.isConstVal, M.pure]
  obtain ⟨i, k, hd⟩ := hd
  rw [M.bind_ok_eq hd]
  have hd2 : ∃ d k', derivatives H (Node.cos i x) [x] k = .ok ([(x, d)], k') := by
    rw [derivatives_single rfl]
    have h11 : ¬ ((-1 : ℝ) = 1) := by norm_num
    simp [x, dfs, endsAt, Node.ptrEq, Node.tag, Node.id, pathSum, pathProd, partialN, M.bind, sinN, negN, sMul, negOne, mulN, mulCL, addN,
      Node.isConstVal, M.pure, Exact.eq_zero_iff, Exact.eq_one_iff, M.fresh, newConst, newSin, newMul, h11, FloatOps.eq, FloatOps.neg, one, zero]
  obtain ⟨d2, k', hd2⟩ := hd2
  have hrow : ∃ row, hessRow x [(x, d2)] [x] k' = .ok (row, k') := by
    simp only [hessRow, getN, ptrEq_refl, if_true, unwrapM]
    exact ⟨_, rfl⟩
  obtain ⟨row, hrow⟩ := hrow
  have hloop : hessLoop H [(x, .cos i x)] [x] k = .ok (([(x, .cos i x)], row ++ []), k') := by
    simp only [hessLoop, getN, ptrEq_refl, if_true, unwrapM]
    rw [M.bind_ok_eq (a := Node.cos i x) (k := k) rfl, M.bind_ok_eq hd2, M.bind_ok_eq hrow]
    rfl
  rw [M.bind_ok_eq hloop]
  exact ⟨_, _, rfl⟩

theorem sub_zero_node (e : Node (Option ℝ)) (he : ∀ i v, e ≠ .const i v) (j n : Nat) :
    subN e (.const j (some 0)) n = .ok (e, n + 1) := by
  cases e <;> simp at he <;>
    simp [subN, sMul, newConst, M.bind, M.fresh, M.pure, addN, mulN, mulCL, Node.isConstVal, negOne, FloatOps.neg, FloatOps.eq, Exact.eq_zero_iff]

/-- The model `minimise sin(x) subject to sin(x) == 0`. -/
noncomputable def sinW : World (Option ℝ) :=
  ⟨[.var 0 "x" .continuous, .sin 1 (.var 0 "x" .continuous)], [⟨3, .sin 1 (.var 0 "x" .continuous), .equal, .const 2 (some 0), ""⟩],
    ⟨.minimize (.sin 1 (.var 0 "x" .continuous)), [⟨3, .sin 1 (.var 0 "x" .continuous), .equal, .const 2 (some 0), ""⟩], [], none, [], []⟩, none⟩

/-- Non-vacuity of C28 over the reals: the model `minimise sin(x) subject to sin(x) == 0` meets the hypotheses of the derivative theorems. -/
theorem sinW_meets : ReachableApiW HashOrder.listOrder sinW 4 ∧ sinW.m.NoSelfDiv ∧
    ∀ H, ∃ (m : Nat) (sp : StdProb (Option ℝ)) (q : Minlp (Option ℝ)) (c : Constraint (Option ℝ)), sinW.m.stdProblem H 4 = .ok (sp, m) ∧
    ((∃ q, sp.prob = .nlp q) ∨ ∃ q, sp.prob = .minlp q) ∧ q ∈ sp.prob.views ∧ (0, c) ∈ sp.jindex2constr ∧
    sp.var2index = [(.var 0 "x" .continuous, 0)] ∧ (∃ v, sinW.m.minimised (pointOf sp.var2index [some 3]) = some v) ∧
    ∃ v, sp.nlRow 4 0 c (pointOf sp.var2index [some 3]) = some v := by
  let x : Node (Option ℝ) := .var 0 "x" .continuous
  let e : Node (Option ℝ) := .sin 1 x
  let c : Constraint (Option ℝ) := ⟨3, e, .equal, .const 2 (some 0), ""⟩
  let W : World (Option ℝ) := sinW
  have hr : ReachableApiW HashOrder.listOrder W 4 :=
    ⟨[.expr (.var "x" .continuous), .expr (.sin 0), .cmpNodeScalar .equal 1 (some 0) "", .addConstraint 0, .minimize 1],
      by simp [Cmd.isRaw, Op.isRaw], rfl⟩
  have hex : ∀ n', subN c.lhs c.rhs n' = .ok (e, n' + 1) := fun n' => sub_zero_node e (by simp [e]) 2 n'
  have hns : NoSelfDiv e := by
    intro i a b h
    simp only [e, x] at h
    rw [occurs_iff] at h
    simp only [Node.arguments, List.mem_cons, List.not_mem_nil, or_false, exists_eq_left, reduceCtorEq, false_or] at h
    rw [occurs_iff] at h
    simp [Node.arguments] at h
  refine ⟨hr, ⟨?_, ?_⟩, fun H => ?_⟩
  · rintro f (hf | hf)
    · simp only [W, sinW, Objective.minimize.injEq] at hf
      exact hf ▸ hns
    · simp [W, sinW] at hf
  · intro c' hc'
    simp only [W, sinW, List.mem_singleton] at hc'
    subst hc'
    refine ⟨hns, fun i a b ho => ?_⟩
    simp only [c] at ho
    rw [occurs_iff] at ho
    simp [Node.arguments] at ho
  have hcomp : ∃ comp k, W.m.stdComponents H 4 = .ok (comp, k) := by
    obtain ⟨c1, m1, h1⟩ := sin_components H "x" 4
    obtain ⟨c2, m2, h2⟩ := sin_components H "x" (m1 + 1)
    unfold Model.stdComponents Model.objComponents
    simp only [W, sinW]
    rw [M.bind_ok_eq h1]
    have hp2 : c2.prop = e.stdProperties := (stdComponents_prop h2).2
    have h4 : ∃ r, c.stdComponents H 0 0 m1 = .ok (r, m2) := by
      unfold Constraint.stdComponents
      rw [M.bind_ok_eq (hex m1), M.bind_ok_eq h2, hp2]
      exact ⟨_, rfl⟩
    have : ∃ r k, constrLoop H (ConstrComp.empty, 0, 0) [c] m1 = .ok (r, k) := by
      obtain ⟨r, h4⟩ := h4
      simp only [constrLoop]
      rw [M.bind_ok_eq h4]
      exact ⟨_, _, rfl⟩
    obtain ⟨r, k, h3⟩ := this
    rw [M.bind_ok_eq h3]
    exact ⟨_, _, rfl⟩
  obtain ⟨comp, k, hcomp⟩ := hcomp
  obtain ⟨h0, hw⟩ := hr.inv
  obtain ⟨hp1, -, -, -, e', ps, hmf⟩ := spec_modelComp (H := H) hw.heap hw.model comp k hcomp
  obtain ⟨sp, xes, ves, cols, m', h1, -, hf⟩ := stdProblem_after hmf hw.initNd hcomp
  have he' : e' = e := hmf.objMin e rfl
  obtain ⟨p, hps, hpc⟩ : ∃ p, ps = [p] ∧ p.c = c := by
    have hcs : ps.map (·.c) = [c] := hmf.cs
    cases hps : ps with
    | nil => rw [hps] at hcs; simp at hcs
    | cons p ps' =>
      rw [hps] at hcs
      cases ps' with
      | nil => simp only [List.map_cons, List.map_nil, List.cons.injEq, and_true] at hcs; exact ⟨p, rfl, hcs⟩
      | cons => simp at hcs
  obtain ⟨n', k', -, -, hok⟩ := hmf.piece (p := p) (by simp [hps])
  have hpe : p.exp = e := by
    obtain ⟨j, hj⟩ := hok.exp
    rw [hpc, hex] at hj
    simp only [Except.ok.injEq, Prod.mk.injEq] at hj
    exact hj.1.symm
  have hnl : p.isNl = true := by
    have := hok.affine
    rw [hok.prop.2, hpe] at this
    simpa [e, Node.stdProperties] using this
  have hj0 : p.jrow = 0 := by
    obtain ⟨kc, -, hch⟩ := hmf.chain
    have := hch.nl
    rw [hps] at this
    simpa [hnl, List.range'] using this
  have hjx : sp.jindex2constr = [(0, c)] := by rw [hf.jindex, hps]; simp [hnl, hj0, hpc]
  have hsl : p.slack = none := by
    cases hs : p.slack with
    | none => rfl
    | some s => exact absurd ((hok.slack_nl hnl).2 s hs).1 (by rw [hpc]; simp [c])
  have hcol : ∀ y, y ∈ cols ↔ y = x := by
    intro y
    rw [hf.mem, MFacts.IsCol, he', hps]
    simp only [List.mem_singleton, exists_eq_left, hpe, or_self, List.filterMap_cons, hsl, List.filterMap_nil, List.not_mem_nil, or_false]
    constructor
    · rintro ⟨hv, ho⟩
      simp only [e, x] at ho
      rw [occurs_iff] at ho
      rcases ho with rfl | ⟨a, ha, ho⟩
      · simp [Node.isVar] at hv
      · simp only [Node.arguments, List.mem_cons, List.not_mem_nil, or_false] at ha
        subst ha
        rw [occurs_iff] at ho
        rcases ho with rfl | ⟨a, ha, ho⟩
        · rfl
        · simp [Node.arguments] at ha
    · rintro rfl
      exact ⟨rfl, Occurs.arg (by simp [e, Node.arguments]) (Occurs.refl _)⟩
  have hcols : cols = [x] := by
    have hnd := hf.cok.nodup'
    cases hcs : cols with
    | nil => have := (hcol x).2 rfl; rw [hcs] at this; simp at this
    | cons y ys =>
      rw [hcs] at hcol hnd
      have hy : y = x := (hcol y).1 (by simp)
      cases ys with
      | nil => rw [hy]
      | cons z zs =>
        have hz : z = x := (hcol z).1 (by simp)
        rw [hy, hz] at hnd
        simp at hnd
  have hv2 : sp.var2index = [(x, 0)] := by rw [hf.v2i, hcols]; rfl
  have hcl : (∃ q, sp.prob = .nlp q) ∨ ∃ q, sp.prob = .minlp q := by
    rcases hf.life with ⟨⟨ha, -⟩, -⟩ | ⟨-, hl, -⟩
    · exfalso
      rw [hmf.objProp.2, he'] at ha
      simp [e, Node.stdProperties] at ha
    · exact hl
  obtain ⟨q, hq⟩ : ∃ q, q ∈ sp.prob.views := by
    rcases hcl with ⟨q, hq⟩ | ⟨q, hq⟩ <;> rw [hq] <;> exact ⟨_, List.mem_singleton.2 rfl⟩
  refine ⟨m', sp, q, c, h1, hcl, hq, by rw [hjx]; simp, hv2, ⟨Real.sin 3, ?_⟩, ?_⟩
  · rw [hv2]; rfl
  · refine ⟨Real.sin 3, ?_⟩
    rw [← hpc, ← hj0, hf.nlRow_eq (by simp [hps]) hnl, hok.fn_val hnl, hsl, hpe, hv2]
    rfl

end Verif
