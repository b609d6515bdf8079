import Verif.Props.ModelStd3
import Verif.Proofs.Repro2

/-! # Property C61: the standard problem does not depend on hash iteration order -/

namespace Verif

set_option linter.unusedSectionVars false
set_option linter.unusedSimpArgs false

section
variable {F : Type} [FloatOps F] {H0 H H' : HashOrder} {W : World F} {n n1 n2 m m' : Nat} {sp sp' : StdProb F}

theorem WInv.factsAt {l : Level} {h0 : Heap F} (hw : WInv l h0 W n) (hle : n ≤ n1) (h : W.m.stdProblem H n1 = .ok (sp, m)) :
    ∃ hp k comp e ps cols xes ves, SpFacts H l hp n1 k W.m comp e ps cols xes ves sp := by
  have hh : HInv h0 n1 := fun i hi => hw.heap i (by omega)
  obtain ⟨h1, -, -, -, k, comp, e, ps, cols, xes, ves, hf, -⟩ := spec_stdProblem (H := H) hh hw.model hw.initNd sp m h
  exact ⟨h1, k, comp, e, ps, cols, xes, ves, hf⟩

theorem ReachableW.two (hr : ReachableW H0 W n) (hn1 : n ≤ n1) (hn2 : n ≤ n2) (h1 : W.m.stdProblem H n1 = .ok (sp, m))
    (h2 : W.m.stdProblem H' n2 = .ok (sp', m')) (hd : (sp.var2index.map fun e => e.1.name).Nodup) :
    ∃ h h' k k' comp comp' e e' ps ps' cols cols' xes xes' ves ves',
      Two H H' .raw .raw h h' n1 k n2 k' W.m comp comp' e e' ps ps' cols cols' xes xes' ves ves' sp sp' := by
  obtain ⟨h0, hw⟩ := hr.inv
  obtain ⟨hp, k, comp, e, ps, cols, xes, ves, hf⟩ := hw.factsAt hn1 h1
  obtain ⟨hp', k', comp', e', ps', cols', xes', ves', hf'⟩ := hw.factsAt hn2 h2
  refine ⟨hp, hp', k, k', comp, comp', e, e', ps, ps', cols, cols', xes, xes', ves, ves', hf, hf', ?_, hw.initNd, fun e he => ?_⟩
  · rw [hf.v2i] at hd
    convert hd using 1
    apply List.ext_getElem?
    intro i
    simp only [List.getElem?_map, List.getElem?_zipIdx]
    cases cols[i]? <;> simp
  · have := (hw.initGood e he).lt hw.heap
    exact ⟨by omega, by omega⟩

/-- C61, columns: whatever the hash iteration orders of the two calls, the columns of the two problems have the same names, in the
same order. -/
theorem C61_columns (hr : ReachableW H0 W n) (hn1 : n ≤ n1) (hn2 : n ≤ n2) (h1 : W.m.stdProblem H n1 = .ok (sp, m))
    (h2 : W.m.stdProblem H' n2 = .ok (sp', m')) :
    sp.var2index.map (fun e => (e.1.name, e.2)) = sp'.var2index.map (fun e => (e.1.name, e.2)) := by
  obtain ⟨h0, hw⟩ := hr.inv
  obtain ⟨hp, k, comp, e, ps, cols, xes, ves, hf⟩ := hw.factsAt hn1 h1
  obtain ⟨hp', k', comp', e', ps', cols', xes', ves', hf'⟩ := hw.factsAt hn2 h2
  have := names_eq hf hf'
  rw [hf.v2i, hf'.v2i]
  apply List.ext_getElem?
  intro i
  have := congrArg (fun l => l[i]?) this
  simp only [List.getElem?_map, List.getElem?_zipIdx] at this ⊢
  revert this
  cases cols[i]? <;> cases cols'[i]? <;> simp

/-- C61, order: if no two columns have the same name, a variable that existed before the calls has the same column in both problems,
or a column in neither. -/
theorem C61_order (hr : ReachableW H0 W n) (hn1 : n ≤ n1) (hn2 : n ≤ n2) (h1 : W.m.stdProblem H n1 = .ok (sp, m))
    (h2 : W.m.stdProblem H' n2 = .ok (sp', m')) (hd : (sp.var2index.map fun e => e.1.name).Nodup) {x : Node F} (hx : x.id < n)
    (i : Nat) : (x, i) ∈ sp.var2index ↔ (x, i) ∈ sp'.var2index := by
  obtain ⟨h, h', k, k', comp, comp', e, e', ps, ps', cols, cols', xes, xes', ves, ves', T⟩ := hr.two hn1 hn2 h1 h2 hd
  rw [T.hf.mem_v2i, T.hf'.mem_v2i]
  have hs : x ∈ cols ↔ x ∈ cols' := by
    have e1 := (T.hf.split.2 x)
    have e2 := (T.hf'.split.2 x)
    rw [List.mem_filter] at e1 e2
    have l1 : x.id < n1 := by omega
    have l2 : x.id < n2 := by omega
    simp only [l1, l2, decide_true, and_true] at e1 e2
    rw [e1, e2, T.hf.mf.userCol T.hf'.mf]
  have key : ∀ {c : List (Node F)} {l : Level} {h : Heap F}, ColsOk l h c → (c[i]? = some x ↔ x ∈ c ∧ colOf c x = i) := by
    intro c l h hc
    constructor
    · intro hi
      obtain ⟨hlt, rfl⟩ := List.getElem?_eq_some_iff.1 hi
      exact ⟨List.getElem_mem _, hc.col_get hlt⟩
    · rintro ⟨hm, rfl⟩
      exact (hc.col hm).2
  rw [key T.hf.cok, key T.hf'.cok]
  constructor
  · rintro ⟨hm, hc⟩
    exact ⟨hs.1 hm, by rw [← T.pair.colOf ⟨hm, hs.1 hm, rfl⟩, hc]⟩
  · rintro ⟨hm, hc⟩
    exact ⟨hs.2 hm, by rw [T.pair.colOf ⟨hs.2 hm, hm, rfl⟩, hc]⟩

/-- C61, data: if no two columns have the same name, the two problems are of the same class, have the same cost vector, matrix, right-hand
side, bounds, integer flags, initial point and number of nonlinear rows, bit for bit, and the same constraints at each row and bound. -/
theorem C61_data (hr : ReachableW H0 W n) (hn1 : n ≤ n1) (hn2 : n ≤ n2) (h1 : W.m.stdProblem H n1 = .ok (sp, m))
    (h2 : W.m.stdProblem H' n2 = .ok (sp', m')) (hd : (sp.var2index.map fun e => e.1.name).Nodup) :
    sp.prob.cls = sp'.prob.cls ∧ sp.prob.cost = sp'.prob.cost ∧
    (∀ q ∈ sp.prob.views, ∀ r ∈ sp'.prob.views, SameData q r) ∧
    sp.aindex2constr = sp'.aindex2constr ∧ sp.jindex2constr = sp'.jindex2constr ∧
    (∀ i c, (i, c) ∈ sp.uindex2constr ↔ (i, c) ∈ sp'.uindex2constr) ∧
    ∀ i c, (i, c) ∈ sp.lindex2constr ↔ (i, c) ∈ sp'.lindex2constr := by
  obtain ⟨h, h', k, k', comp, comp', e, e', ps, ps', cols, cols', xes, xes', ves, ves', T⟩ := hr.two hn1 hn2 h1 h2 hd
  exact ⟨T.cls.1, T.cls.2, fun q hq r hr => T.same hq hr, T.aindex, T.jindex, T.uindex, T.lindex⟩

/-- C61, objective: evaluating the two problems at the same point, after any histories of calls, gives the same objective value, bit for
bit, one gradient entry per column, and as many nonlinear rows and Hessians. -/
theorem C61_objective (hr : ReachableW H0 W n) (hn1 : n ≤ n1) (hn2 : n ≤ n2) (h1 : W.m.stdProblem H n1 = .ok (sp, m))
    (h2 : W.m.stdProblem H' n2 = .ok (sp', m')) (hd : (sp.var2index.map fun e => e.1.name).Nodup)
    {q1 q2 r1 r2 : Minlp F} (hq1 : q1 ∈ sp.prob.views) (hq2 : q2 ∈ sp'.prob.views) {ops1 ops2 : List (ProbOp F)}
    (hr1 : runProb q1 ops1 = .ok r1) (hr2 : runProb q2 ops2 = .ok r2) {xs : List F} (hx : xs.length = sp.var2index.length) :
    ∃ s1 s2, r1.evaluate xs = .ok s1 ∧ r2.evaluate xs = .ok s2 ∧ s1.buf.phi = s2.buf.phi ∧
      (s1.buf.gphi.length = xs.length ∧ s2.buf.gphi.length = xs.length) ∧ s1.buf.f.length = s2.buf.f.length ∧ s1.buf.h.length = s2.buf.h.length := by
  obtain ⟨h, h', k, k', comp, comp', e, e', ps, ps', cols, cols', xes, xes', ves, ves', T⟩ := hr.two hn1 hn2 h1 h2 hd
  exact T.evaluate hq1 hq2 hr1 hr2 (by rw [hx, T.hf.v2i]; simp)

end

section
variable {K : Type} [Field K] [LinearOrder K] [IsStrictOrderedRing K] [Trig K]
variable {H0 H H' : HashOrder} {W : World (Option K)} {n n1 n2 m m' : Nat} {sp sp' : StdProb (Option K)}

theorem Two.f {l l' : Level} {h h' : Heap (Option K)} {mod : Model (Option K)} {comp comp' : ModelComp (Option K)} {e e' : Node (Option K)}
    {ps ps' : List (Piece (Option K))} {cols cols' : List (Node (Option K))} {xes xes' : List (Node (Option K) × Option K)}
    {ves ves' : List (Node (Option K) × Nat)} {k k' : Nat}
    (T : Two H H' l l' h h' n1 k n2 k' mod comp comp' e e' ps ps' cols cols' xes xes' ves ves' sp sp')
    {q1 q2 r1 r2 s1 s2 : Minlp (Option K)} (hq1 : q1 ∈ sp.prob.views) (hq2 : q2 ∈ sp'.prob.views) {ops1 ops2 : List (ProbOp (Option K))}
    (hr1 : runProb q1 ops1 = .ok r1) (hr2 : runProb q2 ops2 = .ok r2) {xs : List (Option K)} (hx : xs.length = cols.length)
    (hs1 : r1.evaluate xs = .ok s1) (hs2 : r2.evaluate xs = .ok s2) : s1.buf.f = s2.buf.f := by
  have hlen := T.pair.length
  have h1' : (comp.obj.prop.affine = true ∧ comp.constr.f = []) ↔ (comp'.obj.prop.affine = true ∧ comp'.constr.f = []) := by
    rw [T.objProp, ← List.length_eq_zero_iff, T.flen, List.length_eq_zero_iff]
  rcases T.hf.life with ⟨ha, -, hl⟩ | ⟨ha, ha', hl⟩ <;> rcases T.hf'.life with ⟨hb, -, hl'⟩ | ⟨hb, hb', hl'⟩
  · have i1 := (hl q1 hq1).run hr1
    have i2 := (hl' q2 hq2).run hr2
    rw [i1.evaluate (by simp [Verif.stdC, hx])] at hs1
    rw [i2.evaluate (by simp [Verif.stdC, hx, hlen])] at hs2
    cases hs1; cases hs2
    simp only
    rw [i1.f, i2.f]
  · exact absurd (h1'.1 ha) hb
  · exact absurd (h1'.2 hb) ha
  · obtain ⟨_, e1, -, l1, v1⟩ := T.hf.values ha' hq1 hr1 (xs := xs) (by rw [hx, T.hf.v2i]; simp)
    obtain ⟨_, e2, -, l2, v2⟩ := T.hf'.values hb' hq2 hr2 (xs := xs) (by rw [hx, T.hf'.v2i]; simp [hlen])
    rw [hs1] at e1; cases e1
    rw [hs2] at e2; cases e2
    apply List.ext_getElem?
    intro i
    by_cases hi : i < sp.jindex2constr.length
    · have hm := List.getElem_mem hi
      have hji : (sp.jindex2constr[i]).1 = i := by simp [T.hf.jidx]
      generalize sp.jindex2constr[i] = jc at hm hji
      obtain ⟨j, c⟩ := jc
      simp only at hji
      subst hji
      rw [v1 _ _ hm, v2 _ _ (T.jindex ▸ hm), T.hf.v2i, T.hf'.v2i, pointOf_eq, pointOf_eq, T.nlRow hm (T.point xs)]
    · have hi' : ¬ i < sp'.jindex2constr.length := by rwa [← T.jindex]
      rw [List.getElem?_eq_none (by omega), List.getElem?_eq_none (by omega)]

/-- C61, constraint functions: in exact arithmetic, evaluating the two problems at the same point, after any histories of calls, gives
the same values of the nonlinear rows. -/
theorem C61_values (hr : ReachableW H0 W n) (hn1 : n ≤ n1) (hn2 : n ≤ n2) (h1 : W.m.stdProblem H n1 = .ok (sp, m))
    (h2 : W.m.stdProblem H' n2 = .ok (sp', m')) (hd : (sp.var2index.map fun e => e.1.name).Nodup)
    {q1 q2 r1 r2 s1 s2 : Minlp (Option K)} (hq1 : q1 ∈ sp.prob.views) (hq2 : q2 ∈ sp'.prob.views) {ops1 ops2 : List (ProbOp (Option K))}
    (hr1 : runProb q1 ops1 = .ok r1) (hr2 : runProb q2 ops2 = .ok r2) {xs : List (Option K)} (hx : xs.length = sp.var2index.length)
    (hs1 : r1.evaluate xs = .ok s1) (hs2 : r2.evaluate xs = .ok s2) : s1.buf.f = s2.buf.f := by
  obtain ⟨h, h', k, k', comp, comp', e, e', ps, ps', cols, cols', xes, xes', ves, ves', T⟩ := hr.two hn1 hn2 h1 h2 hd
  exact T.f hq1 hq2 hr1 hr2 (by rw [hx, T.hf.v2i]; simp) hs1 hs2

end

section
variable {H0 H H' : HashOrder} {W : World (Option ℝ)} {n n1 n2 m m' : Nat} {sp sp' : StdProb (Option ℝ)}

theorem ReachableApiW.two (hr : ReachableApiW H0 W n) (hs : W.m.NoSelfDiv) (hn1 : n ≤ n1) (hn2 : n ≤ n2)
    (h1 : W.m.stdProblem H n1 = .ok (sp, m)) (h2 : W.m.stdProblem H' n2 = .ok (sp', m')) (hd : (sp.var2index.map fun e => e.1.name).Nodup) :
    ∃ h h' k k' comp comp' e e' ps ps' cols cols' xes xes' ves ves',
      Two H H' .noSelf .noSelf h h' n1 k n2 k' W.m comp comp' e e' ps ps' cols cols' xes xes' ves ves' sp sp' := by
  obtain ⟨h0, hw⟩ := hr.inv
  have hm : ModelGood .noSelf h0 W.m := ⟨fun f hf => (hw.model.min f hf).strengthen (hs.1 f (.inl hf)),
    fun f hf => (hw.model.max f hf).strengthen (hs.1 f (.inr hf)),
    fun c hc => ⟨(hw.model.cs c hc).1.strengthen (hs.2 c hc).1, (hw.model.cs c hc).2.strengthen (hs.2 c hc).2⟩⟩
  obtain ⟨hp, -, -, -, k, comp, e, ps, cols, xes, ves, hf, -⟩ := spec_stdProblem (H := H) (n := n1) (fun i hi => hw.heap i (by omega)) hm hw.initNd sp m h1
  obtain ⟨hp', -, -, -, k', comp', e', ps', cols', xes', ves', hf', -⟩ := spec_stdProblem (H := H') (n := n2) (fun i hi => hw.heap i (by omega)) hm hw.initNd sp' m' h2
  refine ⟨hp, hp', k, k', comp, comp', e, e', ps, ps', cols, cols', xes, xes', ves, ves', hf, hf', ?_, hw.initNd, fun e he => ?_⟩
  · rw [hf.v2i] at hd
    convert hd using 1
    apply List.ext_getElem?
    intro i
    simp only [List.getElem?_map, List.getElem?_zipIdx]
    cases cols[i]? <;> simp
  · have := (hw.initGood e he).lt hw.heap
    exact ⟨by omega, by omega⟩

section
variable {h h' : Heap (Option ℝ)} {mod : Model (Option ℝ)} {comp comp' : ModelComp (Option ℝ)} {e e' : Node (Option ℝ)}
    {ps ps' : List (Piece (Option ℝ))} {cols cols' : List (Node (Option ℝ))} {xes xes' : List (Node (Option ℝ) × Option ℝ)}
    {ves ves' : List (Node (Option ℝ) × Nat)} {k k' : Nat}
    (T : Two H H' .noSelf .noSelf h h' n1 k n2 k' mod comp comp' e e' ps ps' cols cols' xes xes' ves ves' sp sp')
include T

theorem Two.along {G G' : Env (Option ℝ) → Option ℝ} (hG : ∀ σ τ, EnvPair cols cols' σ τ → G σ = G' τ) {x y : Node (Option ℝ)}
    (hxy : SameCol cols cols' x y) {σ τ : Env (Option ℝ)} (he : EnvPair cols cols' σ τ) :
    alongVar G x σ = alongVar G' y τ ∧ partialAlong G x σ = partialAlong G' y τ := by
  have : alongVar G x σ = alongVar G' y τ := by
    funext t
    unfold alongVar
    rw [hG _ _ (T.set he hxy (some t))]
  refine ⟨this, ?_⟩
  unfold partialAlong
  rw [this, he x y hxy]

theorem Two.colPair {i : Nat} (hi : i < cols.length) :
    ∃ x y, (x, i) ∈ sp.var2index ∧ (y, i) ∈ sp'.var2index ∧ SameCol cols cols' x y := by
  have hl := T.pair.length
  have hi' : i < cols'.length := by omega
  refine ⟨cols[i], cols'[i], by rw [T.hf.mem_v2i]; simp [hi], by rw [T.hf'.mem_v2i]; simp [hi'], List.getElem_mem _, List.getElem_mem _, ?_⟩
  have := congrArg (fun l => l[i]?) T.pair.names
  simpa [hi, hi'] using this

theorem Two.derivs (hc : (∃ q, sp.prob = .nlp q) ∨ ∃ q, sp.prob = .minlp q) (hc' : (∃ q, sp'.prob = .nlp q) ∨ ∃ q, sp'.prob = .minlp q)
    {q1 q2 r1 r2 s1 s2 : Minlp (Option ℝ)} (hq1 : q1 ∈ sp.prob.views)
    (hq2 : q2 ∈ sp'.prob.views) {ops1 ops2 : List (ProbOp (Option ℝ))} (hr1 : runProb q1 ops1 = .ok r1) (hr2 : runProb q2 ops2 = .ok r2)
    {ts : List ℝ} (hx : ts.length = sp.var2index.length) (hs1 : r1.evaluate (ts.map some) = .ok s1) (hs2 : r2.evaluate (ts.map some) = .ok s2) :
    ((∃ v, mod.minimised (pointOf sp.var2index (ts.map some)) = some v) →
      s1.buf.gphi = s2.buf.gphi ∧ ∀ i j, i < ts.length → j < ts.length → s1.buf.hphi.dense i j = s2.buf.hphi.dense i j) ∧
    ∀ k c, (k, c) ∈ sp.jindex2constr → (∃ v, sp.nlRow n1 k c (pointOf sp.var2index (ts.map some)) = some v) →
      (∀ i, i < ts.length → s1.buf.j.dense k i = s2.buf.j.dense k i) ∧
      ∃ g1 g2, s1.buf.h[k]? = some g1 ∧ s2.buf.h[k]? = some g2 ∧
        ∀ i j, i < ts.length → j < ts.length → g1.dense i j = g2.dense i j := by
  have hl : sp.var2index.length = cols.length := by rw [T.hf.v2i]; simp
  have hl' : sp'.var2index.length = cols'.length := by rw [T.hf'.v2i]; simp
  have hlen := T.pair.length
  have hx' : ts.length = sp'.var2index.length := by omega
  have he : EnvPair cols cols' (pointOf sp.var2index (ts.map some)) (pointOf sp'.var2index (ts.map some)) := by
    rw [T.hf.v2i, T.hf'.v2i, pointOf_eq, pointOf_eq]; exact T.point _
  have up : ∀ (A B : Coo (Option ℝ)), (∀ t ∈ A.triplets, t.2.1 ≤ t.1) → (∀ t ∈ B.triplets, t.2.1 ≤ t.1) → ∀ i j, i < j →
      A.dense i j = B.dense i j := by
    have : ∀ A : Coo (Option ℝ), (∀ t ∈ A.triplets, t.2.1 ≤ t.1) → ∀ i j, i < j → valuesAt j (Verif.rowOf A.triplets i) = [] := by
      intro A hA i j hij
      unfold valuesAt rowOf
      simp only [List.map_eq_nil_iff, List.filter_eq_nil_iff, List.mem_map, List.mem_filter]
      rintro a ⟨t, ⟨ht, hti⟩, rfl⟩
      have := hA t ht
      simp at hti ⊢
      omega
    intro A B hA hB i j hij
    unfold Coo.dense
    rw [this A hA i j hij, this B hB i j hij]
  refine ⟨fun hdef => ?_, fun k c hkc hdef => ?_⟩
  · have hG : ∀ σ τ, EnvPair cols cols' σ τ → mod.minimised σ = mod.minimised τ := fun σ τ => T.minimised
    have hdef' : ∃ v, mod.minimised (pointOf sp'.var2index (ts.map some)) = some v := by rw [← hG _ _ he]; exact hdef
    obtain ⟨_, e1, a1, b1, c1⟩ := T.hf.gradients hc hq1 hr1 hx rfl hdef
    obtain ⟨_, e2, a2, b2, c2⟩ := T.hf'.gradients hc' hq2 hr2 hx' rfl hdef'
    rw [hs1] at e1; cases e1
    rw [hs2] at e2; cases e2
    constructor
    · obtain ⟨_, _, e1, e2, -, hg, -⟩ := T.evaluate hq1 hq2 hr1 hr2 (xs := ts.map some) (by simp; omega)
      rw [hs1] at e1; cases e1
      rw [hs2] at e2; cases e2
      have hgl : s1.buf.gphi.length = cols.length ∧ s2.buf.gphi.length = cols.length := by simp [hg]; omega
      apply List.ext_getElem?
      intro i
      by_cases hi : i < cols.length
      · obtain ⟨x, y, hxi, hyi, hxy⟩ := T.colPair hi
        have ht : ts[i]? = some ts[i] := by simp
        obtain ⟨g, hg1, hg2⟩ := a1 x i _ hxi ht
        obtain ⟨g', hg1', hg2'⟩ := a2 y i _ hyi ht
        rw [(T.along hG hxy he).1] at hg2
        rw [hg1, hg1', hg2.unique hg2']
      · rw [List.getElem?_eq_none (by omega), List.getElem?_eq_none (by omega)]
    · intro i j hi hj
      by_cases hij : j ≤ i
      · obtain ⟨x, y, hxi, hyi, hxy⟩ := T.colPair (i := i) (by omega)
        obtain ⟨x2, y2, hxj, hyj, hxy2⟩ := T.colPair (i := j) (by omega)
        have ht : ts[j]? = some ts[j] := by simp
        obtain ⟨g, hg1, hg2⟩ := b1 x x2 i j _ hxi hxj hij ht
        obtain ⟨g', hg1', hg2'⟩ := b2 y y2 i j _ hyi hyj hij ht
        have : (fun t => partialAlong mod.minimised x ((pointOf sp.var2index (ts.map some)).set x2.id (some t))) =
            fun t => partialAlong mod.minimised y ((pointOf sp'.var2index (ts.map some)).set y2.id (some t)) := by
          funext t
          exact (T.along hG hxy (T.set he hxy2 (some t))).2
        rw [this] at hg2
        rw [hg1, hg1', hg2.unique hg2']
      · exact up _ _ c1 c2 i j (by omega)
  · have hG : ∀ σ τ, EnvPair cols cols' σ τ → sp.nlRow n1 k c σ = sp'.nlRow n2 k c τ := fun σ τ => T.nlRow hkc
    have hdef' : ∃ v, sp'.nlRow n2 k c (pointOf sp'.var2index (ts.map some)) = some v := by rw [← hG _ _ he]; exact hdef
    obtain ⟨_, g1, e1, hg1, -, a1, b1, c1⟩ := T.hf.rowDerivs hc hq1 hr1 hx rfl hkc hdef
    obtain ⟨_, g2, e2, hg2, -, a2, b2, c2⟩ := T.hf'.rowDerivs hc' hq2 hr2 hx' rfl (T.jindex ▸ hkc) hdef'
    rw [hs1] at e1; cases e1
    rw [hs2] at e2; cases e2
    refine ⟨fun i hi => ?_, g1, g2, hg1, hg2, fun i j hi hj => ?_⟩
    · obtain ⟨x, y, hxi, hyi, hxy⟩ := T.colPair (i := i) (by omega)
      have ht : ts[i]? = some ts[i] := by simp
      obtain ⟨g, hg1, hg2⟩ := a1 x i _ hxi ht
      obtain ⟨g', hg1', hg2'⟩ := a2 y i _ hyi ht
      rw [(T.along hG hxy he).1] at hg2
      rw [hg1, hg1', hg2.unique hg2']
    · by_cases hij : j ≤ i
      · obtain ⟨x, y, hxi, hyi, hxy⟩ := T.colPair (i := i) (by omega)
        obtain ⟨x2, y2, hxj, hyj, hxy2⟩ := T.colPair (i := j) (by omega)
        have ht : ts[j]? = some ts[j] := by simp
        obtain ⟨g, hg1, hg2⟩ := b1 x x2 i j _ hxi hxj hij ht
        obtain ⟨g', hg1', hg2'⟩ := b2 y y2 i j _ hyi hyj hij ht
        have : (fun t => partialAlong (sp.nlRow n1 k c) x ((pointOf sp.var2index (ts.map some)).set x2.id (some t))) =
            fun t => partialAlong (sp'.nlRow n2 k c) y ((pointOf sp'.var2index (ts.map some)).set y2.id (some t)) := by
          funext t
          exact (T.along hG hxy (T.set he hxy2 (some t))).2
        rw [this] at hg2
        rw [hg1, hg1', hg2.unique hg2']
      · exact up _ _ c1 c2 i j (by omega)

end

/-- C61, derivatives: in exact arithmetic, for models where no node is divided by itself, evaluating the two problems at the same
point, after any histories of calls, gives the same gradient and Hessian of the objective where the objective has a value, and the same
Jacobian row and Hessian of each nonlinear row that has a value. -/
theorem C61_derivatives (hr : ReachableApiW H0 W n) (hs : W.m.NoSelfDiv) (hn1 : n ≤ n1) (hn2 : n ≤ n2)
    (h1 : W.m.stdProblem H n1 = .ok (sp, m)) (h2 : W.m.stdProblem H' n2 = .ok (sp', m'))
    (hd : (sp.var2index.map fun e => e.1.name).Nodup) {q1 q2 r1 r2 s1 s2 : Minlp (Option ℝ)} (hq1 : q1 ∈ sp.prob.views)
    (hq2 : q2 ∈ sp'.prob.views) {ops1 ops2 : List (ProbOp (Option ℝ))} (hr1 : runProb q1 ops1 = .ok r1) (hr2 : runProb q2 ops2 = .ok r2)
    {ts : List ℝ} (hx : ts.length = sp.var2index.length) (hs1 : r1.evaluate (ts.map some) = .ok s1) (hs2 : r2.evaluate (ts.map some) = .ok s2) :
    ((∃ v, W.m.minimised (pointOf sp.var2index (ts.map some)) = some v) →
      s1.buf.gphi = s2.buf.gphi ∧ ∀ i j, i < ts.length → j < ts.length → s1.buf.hphi.dense i j = s2.buf.hphi.dense i j) ∧
    ∀ k c, (k, c) ∈ sp.jindex2constr → (∃ v, sp.nlRow n1 k c (pointOf sp.var2index (ts.map some)) = some v) →
      (∀ i, i < ts.length → s1.buf.j.dense k i = s2.buf.j.dense k i) ∧
      ∃ g1 g2, s1.buf.h[k]? = some g1 ∧ s2.buf.h[k]? = some g2 ∧
        ∀ i j, i < ts.length → j < ts.length → g1.dense i j = g2.dense i j := by
  obtain ⟨h, h', kk, kk', comp, comp', e, e', ps, ps', cols, cols', xes, xes', ves, ves', T⟩ := hr.two hs hn1 hn2 h1 h2 hd
  have hl : sp.var2index.length = cols.length := by rw [T.hf.v2i]; simp
  have hlen := T.pair.length
  have h1' : (comp.obj.prop.affine = true ∧ comp.constr.f = []) ↔ (comp'.obj.prop.affine = true ∧ comp'.constr.f = []) := by
    rw [T.objProp, ← List.length_eq_zero_iff, T.flen, List.length_eq_zero_iff]
  rcases T.hf.life with ⟨ha, -, hv⟩ | ⟨ha, ha', hv⟩ <;> rcases T.hf'.life with ⟨hb, -, hv'⟩ | ⟨hb, hb', hv'⟩
  · have i1 := (hv q1 hq1).run hr1
    have i2 := (hv' q2 hq2).run hr2
    rw [i1.evaluate (by simp [Verif.stdC]; omega)] at hs1
    rw [i2.evaluate (by simp [Verif.stdC]; omega)] at hs2
    cases hs1; cases hs2
    refine ⟨fun _ => ⟨T.stdC, fun i j _ _ => ?_⟩, fun k c hkc => ?_⟩
    · simp only [Coo.dense, i1.hphi, i2.hphi]
    · exfalso
      have h0 : (ps.filter Piece.isNl) = [] := by
        rw [← List.length_eq_zero_iff]
        have := congrArg List.length T.hf.mf.f_eq
        rw [ha.2] at this
        simpa using this.symm
      rw [T.hf.jindex, h0] at hkc
      simp at hkc
  · exact absurd (h1'.1 ha) hb
  · exact absurd (h1'.2 hb) ha
  · exact T.derivs ha' hb' hq1 hq2 hr1 hr2 hx hs1 hs2

end
/-- Non-vacuity of C61, derivatives: `minimise sin(x) subject to sin(x) == 0`, with any two orders. -/
example (H H' : HashOrder) : ∃ m m' sp sp', ReachableApiW HashOrder.listOrder sinW 4 ∧ sinW.m.NoSelfDiv ∧
    sinW.m.stdProblem H 4 = .ok (sp, m) ∧ sinW.m.stdProblem H' 4 = .ok (sp', m') ∧ (sp.var2index.map fun e => e.1.name).Nodup ∧
    (∃ q1, q1 ∈ sp.prob.views) ∧ (∃ q2, q2 ∈ sp'.prob.views) ∧ [(3 : ℝ)].length = sp.var2index.length ∧
    (∃ v, sinW.m.minimised (pointOf sp.var2index ([3].map some)) = some v) ∧
    ∃ c, (0, c) ∈ sp.jindex2constr ∧ ∃ v, sp.nlRow 4 0 c (pointOf sp.var2index ([3].map some)) = some v := by
  obtain ⟨hr, hs, hm⟩ := sinW_meets
  obtain ⟨m, sp, q, c, h1, -, hq, hc, hv, hmin, hrow⟩ := hm H
  obtain ⟨m', sp', q', c', h1', -, hq', -⟩ := hm H'
  exact ⟨m, m', sp, sp', hr, hs, h1, h1', by rw [hv]; simp, ⟨q, hq⟩, ⟨q', hq'⟩, by rw [hv]; rfl, hmin, c, hc, hrow⟩

/-- Non-vacuity of C61 over exact rationals: the example has columns of different names, and with the reverse order and later numbers the
same data, values and derivatives. -/
def exSp' : Option (StdProb Q) := resultOf ((worldOf exCmds).m.stdProblem HashOrder.revOrder) (wcount exCmds + 7)

def exEval' (xs : List Q) : Option (EvalBuf Q) :=
  exSp'.bind fun sp => sp.prob.views[0]?.bind fun q => match q.evaluate xs with
    | .ok r => some r.buf
    | .error _ => none

example : exSp.map (fun sp => decide (sp.var2index.map fun e => e.1.name).Nodup) = some true ∧
    exSp'.map (fun sp => sp.var2index.map fun e => (e.1.name, e.2)) = exSp.map (fun sp => sp.var2index.map fun e => (e.1.name, e.2)) ∧
    exSp'.map (fun sp => sp.var2index.map fun e => e.1.id) ≠ exSp.map (fun sp => sp.var2index.map fun e => e.1.id) ∧
    (exEval' [some (-1), some 2, some 1, some 3]).map (·.phi) = some (some 4) ∧
    (exEval' [some (-1), some 2, some 1, some 3]).map (·.gphi) = some [some 0, some 0, some 1, some 1] ∧
    (exEval' [some (-1), some 2, some 1, some 3]).map (·.f) = some [some 0] ∧
    (exEval' [some (-1), some 2, some 1, some 3]).map (·.j.triplets) = some [(0, 3, some 1), (0, 2, some 3), (0, 1, some (-1))] := by
  refine ⟨?_, ?_, ?_, ?_, ?_, ?_, ?_⟩ <;> decide +kernel

/-- A model with two variables of the same name: `minimise x + 2 * x'`. -/
def twinCmds : List (Cmd Q) := [.expr (.var "x" .continuous), .expr (.var "x" .continuous), .expr (.mulScalar 1 (some 2)), .expr (.add 0 2), .minimize 3]

def twinCost (H : HashOrder) : Option (List Q) := (resultOf ((worldOf twinCmds).m.stdProblem H) (wcount twinCmds)).bind fun sp => sp.prob.cost

/-- C61, why the names must differ: with two variables of the same name the order of the columns, and with it the cost vector, depends on
the hash iteration order. -/
theorem C61_same_names : ReachableApiW HashOrder.listOrder (worldOf twinCmds) (wcount twinCmds) ∧
    twinCost HashOrder.listOrder = some [some 1, some 2] ∧ twinCost HashOrder.revOrder = some [some 2, some 1] := by
  refine ⟨runsW_reachable (by decide +kernel) (by decide +kernel), ?_, ?_⟩ <;> decide +kernel

end Verif
