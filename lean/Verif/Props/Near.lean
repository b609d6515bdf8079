import Verif.Proofs.Near
import Verif.Props.Convex
import Verif.Props.Tolerance

/-! # Property C69: for convex models an answer that satisfies the optimality conditions up to tolerances is nearly optimal -/

set_option linter.unusedSectionVars false
set_option linter.unusedSimpArgs false

namespace Verif

open Exact

theorem ConvexBetween.congr {g : Env (Option ℝ) → Option ℝ} {g' : Env (Option ℝ) → Option ℝ} {σ τ τ' : Env (Option ℝ)}
    (h : ∀ t, g (σ.mix τ t) = g' (σ.mix τ' t)) (hc : ConvexBetween g σ τ) : ConvexBetween g' σ τ' := by
  obtain ⟨h1, h2⟩ := hc
  refine ⟨fun t ht => by rw [← h t]; exact h1 t ht, ?_⟩
  have : alongSeg g' σ τ' = alongSeg g σ τ := by
    funext t
    unfold alongSeg
    rw [h t]
  rw [this]
  exact h2

/-- An admissible assignment is admissible within tolerances 0. -/
theorem Model.Admissible.within {mod : Model (Option ℝ)} {σ : Env (Option ℝ)} (h : mod.Admissible σ) : mod.AdmissibleWithin 0 0 0 σ := by
  obtain ⟨h1, h2, h3, h4⟩ := h
  refine ⟨fun c hc => ?_, fun x hx hi => ?_, by simpa using h3, by simpa using h4⟩
  · obtain ⟨a, b, ha, hb, hab⟩ := h1 c hc
    refine ⟨a, b, ha, hb, ?_⟩
    revert hab
    cases c.kind <;> simp [CKind.Rel, CKind.Within, sub_eq_zero]
  · obtain ⟨z, hz⟩ := h2 x hx hi
    exact ⟨z, z, hz, by simp⟩

theorem Model.Apart.residual {mod : Model (Option ℝ)} {R : ℝ} {σ τ : Env (Option ℝ)} (h : mod.Apart R σ τ) {c : Constraint (Option ℝ)}
    (hc : c ∈ mod.constraints) (hk : c.kind ≠ .equal) (hb : ∀ x v, ¬ c.Bounds x v) {d d' : ℝ} (h1 : c.residual σ = some d)
    (h2 : c.residual τ = some d') : |d' - d| ≤ R := by
  unfold Constraint.residual at h1 h2
  cases ha : c.lhs.evaluate σ with
  | none => rw [ha] at h1; cases h1
  | some a =>
    cases hb' : c.rhs.evaluate σ with
    | none => rw [ha, hb'] at h1; cases h1
    | some b =>
      cases ha' : c.lhs.evaluate τ with
      | none => rw [ha'] at h2; cases h2
      | some a' =>
        cases hb'' : c.rhs.evaluate τ with
        | none => rw [ha', hb''] at h2; cases h2
        | some b' =>
          rw [ha, hb'] at h1
          rw [ha', hb''] at h2
          cases h1; cases h2
          exact h.residuals c hc hk hb a b a' b' ha hb' ha' hb''

section
variable {H : HashOrder} {W : World (Option ℝ)} {n m : Nat}

/-- C69, convex models: if the solver answered with a point and multipliers that satisfy the first-order conditions of the standard
problem up to the tolerances `δ` (rows), `ε` (bounds), `η` (integrality), `ρ` (gradient of the Lagrangian) and `κ` (complementarity),
with multipliers of total size at most `Λ` and of the right sign for nonlinear inequalities, then no admissible assignment `τ` whose
variables and residuals of inequalities are at most `R` away from those of the final primals has an objective value that is better by
more than `δ Λ + N (ρ (R + δ) + 2 κ)`, if the model is convex between the two and the standard problem has `N` variables. -/
theorem C69_near_optimal (hr : ReachableApiW H W n) (hs : W.m.NoSelfDiv) {solver : SolverFn (Option ℝ)} {mod' : Model (Option ℝ)}
    (h : W.m.solve H solver n = .ok ((.ok (), mod'), m)) {δ ε η ρ κ Λ R : ℝ} (hδ : 0 ≤ δ) {N : Nat}
    (hk : ∀ sp status sol, W.m.SolvedBy H n solver sp status sol → sp.var2index.length = N ∧
      absSum sol.lam + absSum sol.nu ≤ Λ ∧
      (∀ k c v, (k, c) ∈ sp.jindex2constr → sol.nu[k]? = some (some v) →
        (c.kind = .lessEqual → v ≤ 0) ∧ (c.kind = .greaterEqual → 0 ≤ v)) ∧
      ∃ q ∈ sp.prob.views, q.KktWithin δ ε η ρ κ sol)
    (hobj : ∃ v, W.m.minimised (mapEnv mod'.finalPrimals) = some v)
    {τ : Env (Option ℝ)} (hτ : W.m.Admissible τ) (hR : W.m.Apart R (mapEnv mod'.finalPrimals) τ)
    (hc : W.m.ConvexBetween (mapEnv mod'.finalPrimals) τ) :
    ∃ a b, W.m.minimised (mapEnv mod'.finalPrimals) = some a ∧ W.m.minimised τ = some b ∧
      a ≤ b + (δ * Λ + N * (ρ * (R + δ) + 2 * κ)) := by
  obtain ⟨sp, k, hsp, -, hsv⟩ := solve_ok h
  rcases hsv with ⟨e, -, he⟩ | ⟨status, sol, primals, duals, hsol, hx, he⟩ <;> cases he
  obtain ⟨hN, hΛ, hsign, q, hq, hkq⟩ := hk sp status sol ⟨k, hsp, hsol⟩
  obtain ⟨hp, k', comp, e, ps, cols, xes, ves, hf⟩ := hr.factsNoSelf hs hsp
  obtain ⟨a, ha⟩ := hobj
  have hdef : ∀ c ∈ W.m.constraints, ∃ σ d, c.residual σ = some d := fun c hcm => by
    obtain ⟨a, b, ha, hb, -⟩ := hτ.holds c hcm
    exact ⟨τ, a - b, by unfold Constraint.residual; rw [ha, hb]; rfl⟩
  obtain ⟨ys, hys, hlen, -, hagree⟩ := within_point hr hsp le_rfl hτ.within hq
  rw [hf.v2i, pointOf_eq] at hagree
  have hNc : N = cols.length := by rw [← hN, hf.v2i]; simp
  obtain ⟨hlx, hpσ, hbσ, -⟩ := (hf.within (by simp) hdef hq δ ε η sol.x).1 hkq.feasible
  obtain ⟨hly, hpτ, -, -⟩ := (hf.within (by simp) hdef hq 0 0 0 (ys.map some)).1 hys
  rw [← hx.env hf] at hpσ
  have hmix : ∀ x, W.m.HasVar x → ∀ t, (mapEnv primals).mix τ t x.id = (mapEnv primals).mix (pointEnv cols (ys.map some)) t x.id := by
    intro x hxv t
    unfold Env.mix
    rw [hagree x hxv]
  have hcm : ∀ p ∈ ps, p.c ∈ W.m.constraints := fun p hp => by rw [← hf.mf.cs]; exact List.mem_map.2 ⟨p, hp, rfl⟩
  have hlhs : ∀ p ∈ ps, ∀ t, p.c.lhs.evaluate ((mapEnv primals).mix τ t) =
      p.c.lhs.evaluate ((mapEnv primals).mix (pointEnv cols (ys.map some)) t) := fun p hp t =>
    evaluate_congr_var _ fun x hx ho => hmix x ⟨hx, .inr ⟨p.c, hcm p hp, .inl ho⟩⟩ t
  have hrhs : ∀ p ∈ ps, ∀ t, p.c.rhs.evaluate ((mapEnv primals).mix τ t) =
      p.c.rhs.evaluate ((mapEnv primals).mix (pointEnv cols (ys.map some)) t) := fun p hp t =>
    evaluate_congr_var _ fun x hx ho => hmix x ⟨hx, .inr ⟨p.c, hcm p hp, .inr ho⟩⟩ t
  have hresτ : ∀ p ∈ ps, p.c.residual (pointEnv cols (ys.map some)) = p.c.residual τ := fun p hp => by
    unfold Constraint.residual
    rw [evaluate_congr_var p.c.lhs fun x hx ho => hagree x ⟨hx, .inr ⟨p.c, hcm p hp, .inl ho⟩⟩,
      evaluate_congr_var p.c.rhs fun x hx ho => hagree x ⟨hx, .inr ⟨p.c, hcm p hp, .inr ho⟩⟩]
  have heτ : e.evaluate (pointEnv cols (ys.map some)) = e.evaluate τ :=
    evaluate_congr_var _ fun x hx ho => hagree x (hf.mf.objVar hx ho)
  refine Exists.elim (hf.near hdef hq hkq hys (hx.env hf).symm rfl (R := R + δ) (a := a) ?_ (by rw [hf.mf.objVal, ha]) ?_ ?_ ?_ hsign)
    fun b hb => ⟨a, b, ha, by rw [← hf.mf.objVal, ← heτ, hb.1], ?_⟩
  · intro i xv yv hxi hyi
    have hil : i < cols.length := by
      rw [← hlx]
      exact (List.getElem?_eq_some_iff.1 hxi).1
    have hmem : cols[i] ∈ cols := List.getElem_mem hil
    have e1 : cols[i].evaluate (mapEnv primals) = some xv := by
      rw [hx.env hf, evaluate_col hf.cok hmem, hf.cok.col_get hil, hxi]; rfl
    have e2 : cols[i].evaluate (pointEnv cols (ys.map some)) = some yv := by
      rw [evaluate_col hf.cok hmem, hf.cok.col_get hil, List.getElem?_map, hyi]; rfl
    by_cases hn : cols[i].id < n
    · have hv := hf.hasVar hmem hn
      obtain ⟨s, t, hs1, ht1, hle⟩ := hR.vars _ hv
      have e3 : cols[i].evaluate (pointEnv cols (ys.map some)) = cols[i].evaluate τ := by
        have := hagree _ hv
        have hvv := hv.1
        revert this hvv
        cases cols[i] <;> simp [Node.isVar, Node.evaluate, Node.id]
        intro h; rw [h]
      rw [e1] at hs1
      rw [← e3, e2] at ht1
      cases hs1; cases ht1
      linarith
    · obtain ⟨p, hp', hsl⟩ := hf.newCol.1 ⟨hmem, by omega⟩
      obtain ⟨n', m', -, -, hok⟩ := hf.mf.piece hp'
      have hkind : p.c.kind ≠ .equal := by rw [Ne, hok.equal, Piece.bnd_slack hsl]; simp
      have hnb : ∀ y v, ¬ p.c.Bounds y v := by
        intro y v hb'
        have h1 := (hok.bounds_iff.1 hb').1
        simp [Piece.slack, h1] at hsl
      obtain ⟨d1, hd1, -, -, hs1⟩ := hpσ p hp'
      obtain ⟨d2, hd2, -, -, hs2⟩ := hpτ p hp'
      obtain ⟨v1, hv1, hle1, -⟩ := hs1 _ hsl
      obtain ⟨v2, hv2, hle2, -⟩ := hs2 _ hsl
      rw [e1] at hv1; cases hv1
      rw [e2] at hv2; cases hv2
      rw [hresτ p hp'] at hd2
      have hle := hR.residual (hcm p hp') hkind hnb hd1 hd2
      rw [abs_le] at *
      constructor <;> linarith [hle1.1, hle1.2, hle2.1, hle2.2, hle.1, hle.2]
  · refine hc.objective.congr fun t => ?_
    rw [← hf.mf.objVal]
    exact evaluate_congr_var _ fun x hx ho => hmix x (hf.mf.objVar hx ho) t
  · intro p hp' _ hkd
    refine (hc.upper p.c (hcm p hp') hkd).congr fun t => ?_
    rw [hlhs p hp' t, hrhs p hp' t]
  · intro p hp' _ hkd
    refine (hc.lower p.c (hcm p hp') hkd).congr fun t => ?_
    rw [hlhs p hp' t, hrhs p hp' t]
  · rw [hNc]
    have := mul_le_mul_of_nonneg_left hΛ hδ
    linarith [hb.2]

/-- C69, linear models: if the standard problem is an `Lp` or a `Milp`, no hypothesis on convexity or on the signs of multipliers is
needed: an answer that satisfies the first-order conditions up to tolerances is worse than no admissible assignment `τ` by more than
`δ Λ + N (ρ (R + δ) + 2 κ)`. -/
theorem C69_linear (hr : ReachableApiW H W n) (hs : W.m.NoSelfDiv) {solver : SolverFn (Option ℝ)} {mod' : Model (Option ℝ)}
    (h : W.m.solve H solver n = .ok ((.ok (), mod'), m)) {δ ε η ρ κ Λ R : ℝ} (hδ : 0 ≤ δ) {N : Nat}
    (hlin : ∀ sp k, W.m.stdProblem H n = .ok (sp, k) → (∃ q, sp.prob = .lp q) ∨ ∃ q, sp.prob = .milp q)
    (hk : ∀ sp status sol, W.m.SolvedBy H n solver sp status sol → sp.var2index.length = N ∧
      absSum sol.lam + absSum sol.nu ≤ Λ ∧ ∃ q ∈ sp.prob.views, q.KktWithin δ ε η ρ κ sol)
    (hobj : ∃ v, W.m.minimised (mapEnv mod'.finalPrimals) = some v)
    {τ : Env (Option ℝ)} (hτ : W.m.Admissible τ) (hR : W.m.Apart R (mapEnv mod'.finalPrimals) τ) :
    ∃ a b, W.m.minimised (mapEnv mod'.finalPrimals) = some a ∧ W.m.minimised τ = some b ∧
      a ≤ b + (δ * Λ + N * (ρ * (R + δ) + 2 * κ)) := by
  refine C69_near_optimal (ε := ε) (η := η) hr hs h hδ (fun sp status sol hsb => ?_) hobj hτ hR ?_
  · obtain ⟨hN, hΛ, hq⟩ := hk sp status sol hsb
    refine ⟨hN, hΛ, fun k c v hkc => ?_, hq⟩
    obtain ⟨k', hsp, -⟩ := hsb
    obtain ⟨hp, k'', comp, e, ps, cols, xes, ves, hf⟩ := hr.factsNoSelf hs hsp
    exfalso
    have haf : comp.constr.f = [] := by
      rcases hf.life with ⟨hh, -⟩ | ⟨-, hh, -⟩
      · exact hh.2
      · rcases hlin sp k' hsp with ⟨q, hq⟩ | ⟨q, hq⟩ <;> rw [hq] at hh <;> simp at hh
    have h3 := hf.mf.f_eq
    rw [haf] at h3
    rw [hf.jindex, List.map_eq_nil_iff.1 h3.symm] at hkc
    simp at hkc
  · obtain ⟨sp, k, hsp, -, hsv⟩ := solve_ok h
    rcases hsv with ⟨e, -, he⟩ | ⟨status, sol, primals, duals, hsol, hx, he⟩ <;> cases he
    obtain ⟨-, -, q, hq, hkq⟩ := hk sp status sol ⟨k, hsp, hsol⟩
    obtain ⟨hp, k', comp, e, ps, cols, xes, ves, hf⟩ := hr.factsNoSelf hs hsp
    have hdef : ∀ c ∈ W.m.constraints, ∃ σ d, c.residual σ = some d := fun c hcm => by
      obtain ⟨a, b, ha, hb, -⟩ := hτ.holds c hcm
      exact ⟨τ, a - b, by unfold Constraint.residual; rw [ha, hb]; rfl⟩
    obtain ⟨-, hpσ, -, -⟩ := (hf.within (by simp) hdef hq δ ε η sol.x).1 hkq.feasible
    rw [← hx.env hf] at hpσ
    refine hf.linear_convex (by simp) (hlin sp k hsp) (fun x hxv => ?_) (fun c hc => ?_) hobj
    · obtain ⟨s, t, hs1, ht1, -⟩ := hR.vars x hxv
      exact ⟨s, t, evaluate_var_num hxv.1 hs1, evaluate_var_num hxv.1 ht1⟩
    · obtain ⟨p, hpm, rfl⟩ := List.mem_map.1 (hf.mf.cs ▸ hc)
      obtain ⟨d, hd, -⟩ := hpσ p hpm
      exact ⟨d, hd⟩

end

/-- The example of C69: `minimise x subject to x >= 0`, with a solver that stops at `x = 1/1000` and dual 99/100 of the lower bound. -/
noncomputable def nSol : Sol (Option ℝ) := ⟨[some (1 / 1000)], [], [], [some 0], [some (99 / 100)]⟩

/-- Non-vacuity of C69: the program and its inexact solver meet the hypotheses of both theorems with `ρ = 1/100`, `κ = 1/1000` and the
other tolerances 0; the final primal `1/1000` is not optimal; and the assignments to compare with are the numbers up to `R`. -/
example : ∃ (solver : SolverFn (Option ℝ)) (mod' : Model (Option ℝ)) (m : Nat), ReachableApiW HashOrder.listOrder jW 3 ∧ jW.m.NoSelfDiv ∧
    jW.m.solve HashOrder.listOrder solver 3 = .ok ((.ok (), mod'), m) ∧
    (∀ sp k, jW.m.stdProblem HashOrder.listOrder 3 = .ok (sp, k) → (∃ q, sp.prob = .lp q) ∨ ∃ q, sp.prob = .milp q) ∧
    (∀ sp status sol, jW.m.SolvedBy HashOrder.listOrder 3 solver sp status sol → sp.var2index.length = 1 ∧
      absSum sol.lam + absSum sol.nu ≤ 0 ∧
      (∀ k c v, (k, c) ∈ sp.jindex2constr → sol.nu[k]? = some (some v) →
        (c.kind = .lessEqual → v ≤ 0) ∧ (c.kind = .greaterEqual → 0 ≤ v)) ∧
      ∃ q ∈ sp.prob.views, q.KktWithin 0 0 0 (1 / 100) (1 / 1000) sol) ∧
    jW.m.minimised (mapEnv mod'.finalPrimals) = some (1 / 1000) ∧
    ∀ t R : ℝ, 0 ≤ t → t ≤ 10 ^ 8 → |t - 1 / 1000| ≤ R → jW.m.Admissible (fun _ => some (some t)) ∧
      jW.m.Apart R (mapEnv mod'.finalPrimals) (fun _ => some (some t)) ∧
      jW.m.ConvexBetween (mapEnv mod'.finalPrimals) (fun _ => some (some t)) := by
  obtain ⟨sp, m0, hsp, hvi, hlp, q, hq, qx, qa, qf, qb, ql, qu, qp, hevs⟩ := jData
  obtain ⟨mod', m, hsolve, hval⟩ := jRun nSol rfl rfl rfl rfl rfl
  obtain ⟨r, hev, hrf, hrg⟩ := hevs (some (1 / 1000))
  have hmin : jW.m.minimised (mapEnv mod'.finalPrimals) = some (1 / 1000) := by simp [Model.minimised, jW, kx, Node.evaluate, hval]
  refine ⟨_, mod', m, jW_reach, jNs, hsolve, fun sp' k hk => ?_, ?_, hmin, fun t R h0 h1 hR => ⟨⟨?_, ?_, ?_, ?_⟩, ⟨?_, ?_⟩, ?_⟩⟩
  · rw [hsp] at hk; cases hk; exact .inl hlp
  · rintro sp' st sol ⟨m1, hsp', hso⟩
    rw [hsp] at hsp'
    cases hsp'
    cases hso
    refine ⟨by rw [hvi]; rfl, by simp [absSum, nSol], by simp [nSol], q, by rw [hq]; simp, ⟨?_, ?_, ⟨r, hev, ?_⟩, ?_, ?_⟩,
      r, fun _ => 1 / 1000, fun _ => 0, fun _ => 0, fun _ => 0, fun _ => 99 / 100, fun _ => 0, fun _ => 10 ^ 8, hev, ?_⟩
    · rw [qx]; rfl
    · intro i v h
      rw [qb] at h
      simp at h
    · intro v hv'
      rw [hrf] at hv'
      simp at hv'
    · intro i x hxi
      cases i with
      | zero =>
        simp only [nSol, List.getElem?_cons_zero, Option.some.injEq] at hxi
        exact ⟨1 / 1000, 0, 10 ^ 8, hxi.symm, by rw [ql]; rfl, by rw [qu]; rfl, by norm_num, by norm_num⟩
      | succ i => simp [nSol] at hxi
    · intro i hi'
      rw [qp] at hi'
      cases i <;> simp at hi'
    · rw [qx, qa, qf]
      refine ⟨rfl, rfl, rfl, rfl, rfl, ql, qu, fun i hi' => ?_⟩
      obtain rfl : i = 0 := by omega
      refine ⟨le_refl _, by norm_num, by norm_num, by norm_num, 1, fun _ => 0, fun _ => 0, ?_, ?_, by simp, ?_⟩
      · rw [hrg]; rfl
      · intro k hk
        omega
      · norm_num [abs_le]
  · intro c hc
    simp only [jW, List.mem_cons, List.not_mem_nil, or_false] at hc
    subst hc
    exact ⟨t, 0, rfl, rfl, by simpa [CKind.Rel, ka] using h0⟩
  · intro x hx hi
    obtain rfl := jHasVar hx
    simp [kx, Node.isInteger] at hi
  · intro x hx
    obtain rfl := jHasVar hx
    exact ⟨t, rfl, by linarith, h1⟩
  · intro c hc hk hb a b ha hb'
    simp only [jW, List.mem_cons, List.not_mem_nil, or_false] at hc
    subst hc
    simp only [ka, kx, Node.evaluate, Option.some.injEq] at ha hb'
    rw [← ha, ← hb']
    constructor <;> linarith
  · intro x hx
    obtain rfl := jHasVar hx
    exact ⟨1 / 1000, t, by simp [kx, Node.evaluate, hval], rfl, hR⟩
  · intro c hc hk hb a b a' b' ha hb1 ha' hb'
    simp only [jW, List.mem_cons, List.not_mem_nil, or_false] at hc
    subst hc
    simp only [ka, kx, Node.evaluate, Option.some.injEq, hval] at ha hb1 ha' hb'
    rw [← ha, ← hb1, ← ha', ← hb']
    simpa using hR
  · have hx : ∀ s, (mapEnv mod'.finalPrimals).mix (fun _ => some (some t)) s 0 = some (some (1 / 1000 + s * (t - 1 / 1000))) := by
      intro s; simp [Env.mix, hval]
    refine ⟨convexBetween_affine (w := 1 / 1000) (d := t - 1 / 1000) fun s => ?_, fun c hc hk => ?_, fun c hc hk =>
      convexBetween_affine (w := -(1 / 1000)) (d := -(t - 1 / 1000)) fun s => ?_⟩
    · simp [Model.minimised, jW, kx, Node.evaluate, hx]
    · simp only [jW, List.mem_cons, List.not_mem_nil, or_false] at hc
      subst hc
      simp [ka] at hk
    · simp only [jW, List.mem_cons, List.not_mem_nil, or_false] at hc
      subst hc
      simp [ka, kx, Node.evaluate, hx]
      ring

end Verif
