import Verif.Proofs.Repro
import Verif.Proofs.EvalDeriv

/-! # Evaluating two standard problems of one model -/

namespace Verif

set_option linter.unusedSectionVars false
set_option linter.unusedSimpArgs false

section
variable {F : Type} [FloatOps F] {H H' : HashOrder} {l l' : Level} {h h' : Heap F} {n m n' m' : Nat}
variable {mod : Model F} {comp comp' : ModelComp F} {e e' : Node F} {ps ps' : List (Piece F)} {cols cols' : List (Node F)}
variable {xes xes' : List (Node F × F)} {ves ves' : List (Node F × Nat)} {sp sp' : StdProb F}

/-- Two assignments give the same values to columns of the same name. -/
def EnvPair (cols cols' : List (Node F)) (σ τ : Env F) : Prop := ∀ x y, SameCol cols cols' x y → σ x.id = τ y.id

theorem var_evaluate {x : Node F} (hx : x.isVar = true) {σ τ : Env F} {y : Node F} (hy : y.isVar = true) (h : σ x.id = τ y.id) :
    x.evaluate σ = y.evaluate τ := by
  cases x <;> simp [Node.isVar] at hx
  cases y <;> simp [Node.isVar] at hy
  simp only [Node.id] at h
  simp [Node.evaluate, h]

variable (T : Two H H' l l' h h' n m n' m' mod comp comp' e e' ps ps' cols cols' xes xes' ves ves' sp sp')
include T

theorem Two.point (xs : List F) : EnvPair cols cols' (pointEnv cols xs) (pointEnv cols' xs) := by
  intro x y hxy
  rw [pointEnv_col T.hf.cok hxy.1, pointEnv_col T.hf'.cok hxy.2.1, T.pair.colOf hxy]

theorem Two.idEq {x y a b : Node F} (h1 : SameCol cols cols' x y) (h2 : SameCol cols cols' a b) : a.id = x.id ↔ b.id = y.id := by
  have := T.pair.ptrEq h2 h1
  have hv : ∀ u v : Node F, u.isVar = true → v.isVar = true → (u.ptrEq v = true ↔ u.id = v.id) := by
    intro u v hu hv
    cases u <;> simp [Node.isVar] at hu
    cases v <;> simp [Node.isVar] at hv
    simp [Node.ptrEq, Node.tag, Node.id]
  rw [← hv _ _ (T.hf.cok.var _ h2.1) (T.hf.cok.var _ h1.1), ← hv _ _ (T.hf'.cok.var _ h2.2.1) (T.hf'.cok.var _ h1.2.1), this]

theorem Two.set {σ τ : Env F} (hp : EnvPair cols cols' σ τ) {x y : Node F} (hxy : SameCol cols cols' x y) (v : F) :
    EnvPair cols cols' (σ.set x.id v) (τ.set y.id v) := by
  intro a b hab
  have := T.idEq hxy hab
  unfold Env.set
  by_cases hc : a.id = x.id
  · simp [hc, this.1 hc]
  · simp [hc, mt this.2 hc, hp a b hab]

theorem Two.objVal {σ τ : Env F} (hp : EnvPair cols cols' σ τ) : e.evaluate σ = e'.evaluate τ := by
  rw [evaluate_congr_var (τ := τ) e fun x hx ho => hp x x (T.user ⟨hx, .inl ho⟩)]
  exact (T.hf.mf.simObj T.hf'.mf).evaluate τ

theorem Two.expVal {p q : Piece F} (hp : p ∈ ps) (hpq : PSim p q) {σ τ : Env F} (hq : EnvPair cols cols' σ τ) :
    p.exp.evaluate σ = q.exp.evaluate τ := by
  rw [evaluate_congr_var (τ := τ) p.exp fun x hx ho => hq x x (T.user ⟨hx, .inr ⟨p, hp, ho⟩⟩)]
  exact hpq.exp.evaluate τ

theorem Two.sameNx : cols.length = cols'.length := T.pair.length

/-- The value of the objective in the two problems, after any histories. -/
theorem Two.evaluate {q1 q2 r1 r2 : Minlp F} (hq1 : q1 ∈ sp.prob.views) (hq2 : q2 ∈ sp'.prob.views) {ops1 ops2 : List (ProbOp F)}
    (h1 : runProb q1 ops1 = .ok r1) (h2 : runProb q2 ops2 = .ok r2) {xs : List F} (hx : xs.length = cols.length) :
    ∃ s1 s2, r1.evaluate xs = .ok s1 ∧ r2.evaluate xs = .ok s2 ∧ s1.buf.phi = s2.buf.phi ∧
      (s1.buf.gphi.length = xs.length ∧ s2.buf.gphi.length = xs.length) ∧
      s1.buf.f.length = s2.buf.f.length ∧ s1.buf.h.length = s2.buf.h.length := by
  have hlen := T.pair.length
  have h1' : (comp.obj.prop.affine = true ∧ comp.constr.f = []) ↔ (comp'.obj.prop.affine = true ∧ comp'.constr.f = []) := by
    rw [T.objProp, ← List.length_eq_zero_iff, T.flen, List.length_eq_zero_iff]
  rcases T.hf.life with ⟨ha, -, hl⟩ | ⟨ha, -, hl⟩ <;> rcases T.hf'.life with ⟨hb, -, hl'⟩ | ⟨hb, -, hl'⟩
  · have i1 := (hl q1 hq1).run h1
    have i2 := (hl' q2 hq2).run h2
    rw [i1.evaluate (by simp [Verif.stdC, hx]), i2.evaluate (by simp [Verif.stdC, hx, hlen])]
    refine ⟨_, _, rfl, rfl, ?_, ?_, ?_, ?_⟩
    · simp only; rw [T.stdC]
    · simp [Verif.stdC, hx, hlen]
    · simp only; rw [i1.f, i2.f]
    · simp only; rw [i1.h, i2.h]
  · exact absurd (h1'.1 ha) hb
  · exact absurd (h1'.2 hb) ha
  · have i1 := (hl q1 hq1).run T.hf.cok T.hf.cmpOk T.hf.vesP h1
    have i2 := (hl' q2 hq2).run T.hf'.cok T.hf'.cmpOk T.hf'.vesP h2
    rw [i1.evaluate T.hf.cok T.hf.cmpOk T.hf.vesP (by omega), i2.evaluate T.hf'.cok T.hf'.cmpOk T.hf'.vesP (by omega)]
    refine ⟨_, _, rfl, rfl, ?_, ?_, ?_, ?_⟩
    · obtain ⟨k1, k2, hk⟩ := T.hf.mf.objComp
      obtain ⟨k1', k2', hk'⟩ := T.hf'.mf.objComp
      simp only [evalBuf, (stdComponents_prop hk).1, (stdComponents_prop hk').1]
      exact T.objVal (T.point xs)
    · simp [evalBuf, hx, hlen]
    · simp [evalBuf, T.flen]
    · have := T.flen
      rw [T.hf.mf.f_eq, T.hf'.mf.f_eq] at this
      simpa [evalBuf, T.hf.mf.h_eq, T.hf'.mf.h_eq] using this

theorem Two.same {q r : Minlp F} (hq : q ∈ sp.prob.views) (hr : r ∈ sp'.prob.views) : SameData q r := by
  have hv := T.hf.view hq
  have hv' := T.hf'.view hr
  have hz : ∀ ts : List (Nat × Nat × F), (ts.map (·.1)).zip ((ts.map (·.2.1)).zip (ts.map (·.2.2))) = ts := by
    intro ts
    induction ts with
    | nil => rfl
    | cons t ts ih => simp [ih]
  refine ⟨?_, ?_, ?_, ?_, ?_, ?_, ?_, ?_⟩
  · simp [hv.a, hv'.a, stdA, T.b, T.pair.length]
  · simp only [hv.a, hv'.a, stdA, Coo.triplets, hz]
    exact T.a
  · rw [hv.b, hv'.b, T.b]
  · rw [hv.l, hv'.l, T.stdL]
  · rw [hv.u, hv'.u, T.stdU]
  · rw [hv.p, hv'.p, T.stdP]
  · rw [hv.x0, hv'.x0, T.stdX0]
  · have : ∀ {H : HashOrder} {l : Level} {h : Heap F} {n m : Nat} {comp : ModelComp F} {e : Node F} {ps : List (Piece F)}
        {cols : List (Node F)} {xes : List (Node F × F)} {ves : List (Node F × Nat)} {sp : StdProb F} {q : Minlp F},
        SpFacts H l h n m mod comp e ps cols xes ves sp → q ∈ sp.prob.views → q.nf = comp.constr.f.length := by
      intro _ _ _ _ _ _ _ _ _ _ _ _ _ hf hq
      rcases hf.life with ⟨⟨-, hnf⟩, -, hl⟩ | ⟨-, -, hl⟩
      · rw [hnf]
        have := (hl _ hq).f
        simp [Minlp.nf, this]
      · have := (hl _ hq).buf
        simp [Minlp.nf, this.f]
    rw [this T.hf hq, this T.hf' hr, T.flen]

end

section
variable {K : Type} [Field K] [LinearOrder K] [IsStrictOrderedRing K] [Trig K]
variable {H H' : HashOrder} {l l' : Level} {h h' : Heap (Option K)} {n m n' m' : Nat}
variable {mod : Model (Option K)} {comp comp' : ModelComp (Option K)} {e e' : Node (Option K)} {ps ps' : List (Piece (Option K))}
variable {cols cols' : List (Node (Option K))} {xes xes' : List (Node (Option K) × Option K)} {ves ves' : List (Node (Option K) × Nat)}
variable {sp sp' : StdProb (Option K)}
variable (T : Two H H' l l' h h' n m n' m' mod comp comp' e e' ps ps' cols cols' xes xes' ves ves' sp sp')
include T

theorem Two.rowVal {p q : Piece (Option K)} (hp : p ∈ ps) (hq : q ∈ ps') (hpq : PSim p q) {σ τ : Env (Option K)}
    (he : EnvPair cols cols' σ τ) : rowVal p.exp p.slack σ = rowVal q.exp q.slack τ := by
  unfold Verif.rowVal
  rcases hpq.slack with ⟨h1, h2⟩ | ⟨s, t, h1, h2, -⟩
  · rw [h1, h2]; exact T.expVal hp hpq he
  · rw [h1, h2]
    have hst := T.slack hp hq hpq h1 h2
    simp only
    rw [T.expVal hp hpq he, var_evaluate (T.hf.cok.var _ hst.1) (T.hf'.cok.var _ hst.2.1) (he s t hst)]

/-- The nonlinear rows of the two problems are the same functions. -/
theorem Two.nlRow {k : Nat} {c : Constraint (Option K)} (hkc : (k, c) ∈ sp.jindex2constr) {σ τ : Env (Option K)}
    (he : EnvPair cols cols' σ τ) : sp.nlRow n k c σ = sp'.nlRow n' k c τ := by
  simp only [T.hf.jindex, List.mem_map, List.mem_filter, Prod.mk.injEq] at hkc
  obtain ⟨p, ⟨hp, hnl⟩, rfl, rfl⟩ := hkc
  obtain ⟨q, hq, hpq⟩ := forall₂_left (T.hf.mf.psim T.hf'.mf) hp
  obtain ⟨_, _, -, -, hok⟩ := T.hf.mf.piece hp
  obtain ⟨_, _, -, -, hok'⟩ := T.hf'.mf.piece hq
  have hnl' : q.isNl = true := by rw [← hpq.nl, hnl]
  rw [T.hf.nlRow_eq hp hnl, hok.fn_val hnl, hpq.c, hpq.jrow, T.hf'.nlRow_eq hq hnl', hok'.fn_val hnl', T.rowVal hp hq hpq he]

theorem Two.minimised {σ τ : Env (Option K)} (he : EnvPair cols cols' σ τ) : mod.minimised σ = mod.minimised τ := by
  rw [← T.hf.mf.objVal, ← T.hf'.mf.objVal, T.objVal he]

end
end Verif
