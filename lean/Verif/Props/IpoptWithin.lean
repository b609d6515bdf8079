import Verif.Spec.IpoptWithin
import Verif.Props.DualsIpopt
import Verif.Props.Near

/-! # Property C70: models solved with Ipopt up to its tolerances -/

namespace Verif

open Exact

set_option linter.unusedSectionVars false
set_option linter.unusedSimpArgs false

section
variable {K : Type} [Field K] [LinearOrder K] [IsStrictOrderedRing K] [Trig K]

theorem betweenWithin_zero {t : K} {v : Option K} : BetweenWithin t (some 0) v (some 0) ↔ ∃ y, v = some y ∧ |y| ≤ t := by
  constructor
  · rintro ⟨a, y, b, ha, rfl, hb, h1, h2⟩
    cases ha; cases hb
    exact ⟨y, rfl, abs_le.2 ⟨by linarith, by linarith⟩⟩
  · rintro ⟨y, rfl, h⟩
    obtain ⟨h1, h2⟩ := abs_le.1 h
    exact ⟨0, y, 0, rfl, rfl, rfl, by linarith, by linarith⟩

/-- A point that meets the constraints of the problem given to Ipopt up to tolerances satisfies the problem up to tolerances. -/
theorem meets_within {q : Minlp (Option K)} {val : List (Option K) → EvalBuf (Option K)} (hs : q.Sound) (hv : EvalsTo q val)
    (hp : ∀ i : Nat, q.p[i]? ≠ some true) {δ ε η : K} {x : List (Option K)} (h : q.ipoptArgs.MeetsWithin (q.oracle val) δ ε x) :
    q.FeasibleWithin δ ε η x := by
  have hx : x.length = q.nx := by
    have := h.len
    simp only [Minlp.ipoptArgs] at this
    exact_mod_cast this
  obtain ⟨hg, hrow, hnl, hz⟩ := oracle_rows hs hv hx
  have hall : ∀ (i : Nat) v, ((q.oracle val).g x)[i]? = some v → ∃ y, v = some y ∧ |y| ≤ δ := by
    intro i v hiv
    have hi := (List.getElem?_eq_some_iff.1 hiv).1
    obtain ⟨lo, v', up, h1, h2, h3, h4⟩ := h.rows i hi
    rw [hg] at hi
    rw [(hz i hi).1] at h1
    rw [(hz i hi).2] at h3
    cases h1; cases h3
    rw [hiv] at h2; cases h2
    exact betweenWithin_zero.1 h4
  refine ⟨hx, ?_, ?_, ?_, fun i hi => absurd hi (hp i)⟩
  · intro i b hb
    obtain ⟨y, hy, hle⟩ := hall i _ (hrow i b hb)
    cases ht : total ((rowOf q.a.triplets i).map fun e => e.2 *. (x[e.1]?).getD none) with
    | none => rw [ht] at hy; cases hy
    | some w =>
      cases b with
      | none => rw [ht] at hy; cases hy
      | some b =>
        rw [ht] at hy
        cases hy
        exact ⟨b, w, rfl, rfl, hle⟩
  · refine ⟨_, hv.eval [] q rfl x hx, fun v hvm => ?_⟩
    obtain ⟨i, hi, hiv⟩ := List.getElem_of_mem hvm
    refine hall (q.na + i) v ?_
    rw [hnl, List.getElem?_eq_getElem hi, hiv]
  · intro i v hiv
    obtain ⟨lo, v', up, h1, h2, h3, a, t, b, rfl, rfl, rfl, h4, h5⟩ := h.bounds i (List.getElem?_eq_some_iff.1 hiv).1
    rw [hiv] at h2; cases h2
    exact ⟨t, a, b, rfl, h1, h3, h4, h5⟩

variable {H : HashOrder} {W : World (Option K)} {n m : Nat}

/-- C70, feasibility: a model is solved with Ipopt, by a native library that obeys the `new_x` protocol and, whenever the values it is told
are true, ends with code 0 or 1 only at a point that satisfies the rows up to `δ` and the bounds up to `ε`. If `solve` succeeds and reports
`Solved`, then at the final primals every constraint of the model has a violation of at most `δ + ε`, every equality of at most `δ` and
every bound of a variable of at most `ε`. -/
theorem C70_feasible (hr : ReachableApiW H W n) {ps : Params (Option K)} {lib : IpoptLib (Option K)} {mod' : Model (Option K)}
    (h : W.m.solve H (ipoptFn ps lib) n = .ok ((.ok (), mod'), m)) (hst : mod'.solverStatus = some .solved)
    (hd : ∀ c ∈ W.m.constraints, ∃ σ a b, c.lhs.evaluate σ = some a ∧ c.rhs.evaluate σ = some b) {δ ε : K} (hδ : 0 ≤ δ) (hε : 0 ≤ ε)
    (hlib : ∀ sp m q val, W.m.stdProblem H n = .ok (sp, m) → sp.prob.IsNlp q → EvalsTo q val → lib.Obeys q.ipoptArgs q ∧
      lib.Right (fun c a => ¬ c.IsJacPattern → (q.oracle val).Truthful c a) q.ipoptArgs (q.ipoptArgs.ClaimMeetsWithin (q.oracle val) δ ε)) :
    ∀ c ∈ mod'.constraints, ∃ a b w, c.lhs.evaluate (mapEnv mod'.finalPrimals) = some a ∧
      c.rhs.evaluate (mapEnv mod'.finalPrimals) = some b ∧ c.violation (mapEnv mod'.finalPrimals) = some w ∧
      w ≤ δ + ε ∧ (c.kind = .equal → w ≤ δ) ∧ ∀ x v, c.Bounds x v → w ≤ ε := by
  refine (C65_feasible (η := 0) hr h hd hδ hε fun sp status sol hs => ?_).1
  have hstat := solvedBy_unique h hs
  rw [hst] at hstat
  injection hstat with hstat
  obtain ⟨k, hsp, hsol⟩ := hs
  obtain ⟨q, val, code, x, lamnu, pi, mu, hq, hview, hsound, hv, hclaim, hc, -, -, hx⟩ := ipopt_claim hr.reachable hsp hsol
    (T := fun q val c a => ¬ c.IsJacPattern → (q.oracle val).Truthful c a)
    (claim := fun q val => q.ipoptArgs.ClaimMeetsWithin (q.oracle val) δ ε)
    (fun q val _ _ c a h1 h2 => h1 fun h3 => absurd h3 h2) (fun q val hq hv => hlib sp k q val hsp hq hv)
  have hf := meets_within (η := 0) hsound hv (nlp_continuous hr.reachable hsp hq) (hclaim (hc.1 hstat.symm))
  exact ⟨q, hview, by rw [hx hf.len]; exact hf⟩

end

section
variable {H : HashOrder} {W : World (Option ℝ)} {n m : Nat}

/-- First-order conditions up to tolerances of the problem given to Ipopt are those of the standard problem. -/
theorem firstOrder_within {q : Minlp (Option ℝ)} {val : List (Option ℝ) → EvalBuf (Option ℝ)} (hs : q.Sound) (hv : EvalsTo q val)
    (hp : ∀ i : Nat, q.p[i]? ≠ some true) {x lamnu pi mu : List (Option ℝ)} (hl : q.l.length = q.nx) (hu : q.u.length = q.nx)
    {δ ε ρ κ Λ : ℝ} (h : q.ipoptArgs.FirstOrderWithin (q.oracle val) δ ε ρ κ Λ x lamnu pi mu) :
    q.KktWithin δ ε 0 ρ κ ⟨x, (lamnu.take q.na).map FloatOps.neg, (lamnu.drop q.na).map FloatOps.neg, mu, pi⟩ := by
  have hf := meets_within (η := 0) hs hv hp h.meets
  have hlen : lamnu.length = q.na + q.nf := by
    have := h.lamnuLen
    simp only [Minlp.ipoptArgs] at this
    exact_mod_cast this
  have hpl : pi.length = q.nx := by simpa [Minlp.ipoptArgs] using h.piLen
  have hml : mu.length = q.nx := by simpa [Minlp.ipoptArgs] using h.muLen
  have hvec : ∀ (L : List (Option ℝ)) (N : Nat) (f : Nat → ℝ), L.length = N → (∀ j < N, L[j]? = some (some (f j))) → L = vec N f := by
    intro L N f hl h
    refine List.ext_getElem? fun j => ?_
    by_cases hj : j < N
    · rw [h j hj, vec_get hj]
    · rw [List.getElem?_eq_none (by omega), List.getElem?_eq_none (by simp; omega)]
  have hst : ∀ i < q.nx, _ := fun i hi => h.stationary i (by rw [hf.len]; exact hi)
  have hlam : ∀ k < q.na + q.nf, lamnu[k]? = some (some (((lamnu[k]?).getD none).getD 0)) := by
    intro k hk
    obtain ⟨v, hv⟩ := h.numbers (lamnu[k]'(by omega)) (List.getElem_mem _)
    rw [List.getElem?_eq_getElem (by omega), hv]; rfl
  let X : List (Option ℝ) → Nat → ℝ := fun L k => ((L[k]?).getD none).getD 0
  have hX : ∀ (L : List (Option ℝ)) (k : Nat) (v : ℝ), L[k]? = some (some v) → X L k = v := fun L k v h => by simp [X, h]
  refine ⟨hf, { q with buf := val x }, X x, fun k => - X lamnu k, fun k => - X lamnu (q.na + k), X mu, X pi, X q.l, X q.u,
    hv.eval [] q rfl x hf.len, hvec _ _ _ hf.len fun j hj => ?_, hvec _ _ _ (by simp [hlen]) fun j hj => ?_,
    hvec _ _ _ (by simp [hlen]) fun j hj => ?_, hvec _ _ _ hml fun j hj => ?_, hvec _ _ _ hpl fun j hj => ?_, hvec _ _ _ hl fun j hj => ?_,
    hvec _ _ _ hu fun j hj => ?_, fun i hi => ?_⟩
  · obtain ⟨v, g, zL, zU, lo, up, s, h1, -⟩ := hst j hj
    rw [h1, hX _ _ _ h1]
  · rw [List.getElem?_map, List.getElem?_take_of_lt hj, hlam j (by omega)]; rfl
  · rw [List.getElem?_map, List.getElem?_drop, hlam (q.na + j) (by omega)]; rfl
  · obtain ⟨v, g, zL, zU, lo, up, s, -, -, -, h1, -⟩ := hst j hj
    rw [h1, hX _ _ _ h1]
  · obtain ⟨v, g, zL, zU, lo, up, s, -, -, h1, -⟩ := hst j hj
    rw [h1, hX _ _ _ h1]
  · obtain ⟨v, g, zL, zU, lo, up, s, -, -, -, -, h1, -⟩ := hst j hj
    change q.l[j]? = _ at h1
    rw [h1, hX _ _ _ h1]
  · obtain ⟨v, g, zL, zU, lo, up, s, -, -, -, -, -, h1, -⟩ := hst j hj
    change q.u[j]? = _ at h1
    rw [h1, hX _ _ _ h1]
  · obtain ⟨v, g, zL, zU, lo, up, s, h1, h2, h3, h4, h5, h6, p1, p2, p3, p4, hsum, heq⟩ := hst i hi
    change q.l[i]? = _ at h5
    change q.u[i]? = _ at h6
    rw [hX _ _ _ h1, hX _ _ _ h3, hX _ _ _ h4, hX _ _ _ h5, hX _ _ _ h6]
    obtain ⟨d1, d2, rfl⟩ := jac_column hs hlen hsum
    refine ⟨p2, p1, p4, p3, g, fun k => (q.a.dense k i).getD 0, fun k => ((val x).j.dense k i).getD 0, h2, fun k _ => ?_, fun k _ => ?_, ?_⟩
    · obtain ⟨w, hw⟩ := d1 k
      simp only [hw]; rfl
    · obtain ⟨w, hw⟩ := d2 k
      show (val x).j.dense k i = _
      simp only [hw]; rfl
    · simp only [sum_list_range, X, Nat.zero_add] at heq ⊢
      simp only [mul_neg, Finset.sum_neg_distrib]
      refine le_of_eq_of_le ?_ heq
      congr 1
      ring

/-- What Ipopt answers satisfies the first-order conditions of the standard problem up to tolerances. -/
theorem ipopt_kktWithin (hr : ReachableApiW H W n) {ps : Params (Option ℝ)} {lib : IpoptLib (Option ℝ)} {mod' : Model (Option ℝ)}
    (h : W.m.solve H (ipoptFn ps lib) n = .ok ((.ok (), mod'), m)) (hst : mod'.solverStatus = some .solved)
    (honly : ∀ sp m q, W.m.stdProblem H n = .ok (sp, m) → sp.prob.IsNlp q → q.na = 0 ∨ q.buf.j.rowInds = []) {δ ε ρ κ Λ : ℝ}
    (hlib : ∀ sp m q val, W.m.stdProblem H n = .ok (sp, m) → sp.prob.IsNlp q → EvalsTo q val → lib.Obeys q.ipoptArgs q ∧
      lib.Right (q.oracle val).Truthful q.ipoptArgs (q.ipoptArgs.ClaimFirstOrderWithin (q.oracle val) δ ε ρ κ Λ)) :
    ∀ sp status sol, W.m.SolvedBy H n (ipoptFn ps lib) sp status sol → absSum sol.lam + absSum sol.nu ≤ Λ ∧
      ∃ q ∈ sp.prob.views, q.KktWithin δ ε 0 ρ κ sol := by
  intro sp status sol hs
  have hstat := solvedBy_unique h hs
  rw [hst] at hstat
  injection hstat with hstat
  obtain ⟨k, hsp, hsol⟩ := hs
  obtain ⟨q, val, code, x, lamnu, pi, mu, hq, hview, hsound, hv, hclaim, hc, -, hsol', -⟩ := ipopt_claim hr.reachable hsp hsol
    (T := fun q val => (q.oracle val).Truthful) (claim := fun q val => q.ipoptArgs.ClaimFirstOrderWithin (q.oracle val) δ ε ρ κ Λ)
    (fun q val hq _ c a h1 => h1 fun _ => honly sp k q hsp hq) (fun q val hq hv => hlib sp k q val hsp hq hv)
  have hm := hclaim (hc.1 hstat.symm)
  have l1 : x.length = q.nx := by have := hm.meets.len; simp only [Minlp.ipoptArgs] at this; exact_mod_cast this
  have l2 : lamnu.length = q.na + q.nf := by have := hm.lamnuLen; simp only [Minlp.ipoptArgs] at this; exact_mod_cast this
  have l3 : pi.length = q.nx := by have := hm.piLen; simp only [Minlp.ipoptArgs] at this; exact_mod_cast this
  have l4 : mu.length = q.nx := by have := hm.muLen; simp only [Minlp.ipoptArgs] at this; exact_mod_cast this
  rw [hsol' l1 l2 l3 l4]
  refine ⟨?_, q, hview, ?_⟩
  · have habs : ∀ L : List (Option ℝ), absSum (L.map FloatOps.neg) = (L.map fun v => |v.getD 0|).sum := by
      intro L
      unfold absSum
      rw [List.map_map]
      congr 1
      refine List.map_congr_left fun v _ => ?_
      cases v with
      | none => rfl
      | some v => exact abs_neg v
    simp only [habs]
    rw [← List.sum_append, ← List.map_append, List.take_append_drop]
    exact hm.size
  have hlu : q.l.length = q.nx ∧ q.u.length = q.nx := by
    obtain ⟨hp, k, comp, e, ps, cols, xes, ves, hf, -⟩ := hr.reachable.facts hsp
    rcases hf.views_eq hview with ⟨-, rfl⟩ | rfl <;>
      simp [stdLinear, stdMinlp, Minlp.initial, Minlp.nx, stdL, stdU, stdA, Coo.cols]
  exact firstOrder_within hsound hv (nlp_continuous hr.reachable hsp hq) hlu.1 hlu.2 hm

/-- C70, near-optimality: a model whose nonlinear rows or whose linear rows are absent is solved with Ipopt, by a native library that obeys
the protocol and that, whenever the answers it gets are truthful, ends with code 0 or 1 only at a point and multipliers that satisfy the
first-order conditions of the problem given to it up to tolerances. If `solve` succeeds and reports `Solved`, the standard problem has `N`
variables, and the multipliers of nonlinear inequalities have the right sign, then no admissible assignment at distance up to `R`, between which and
the final primals the model is convex, has an objective value that is better by more than `δ Λ + N (ρ (R + δ) + 2 κ)`. Missing: models with
both kinds of rows, for which the pattern of the Jacobian is not told truthfully (`C58_counterexample`). -/
theorem C70_near_optimal_partial (hr : ReachableApiW H W n) (hs : W.m.NoSelfDiv) {ps : Params (Option ℝ)} {lib : IpoptLib (Option ℝ)}
    {mod' : Model (Option ℝ)} (h : W.m.solve H (ipoptFn ps lib) n = .ok ((.ok (), mod'), m)) (hst : mod'.solverStatus = some .solved)
    (honly : ∀ sp m q, W.m.stdProblem H n = .ok (sp, m) → sp.prob.IsNlp q → q.na = 0 ∨ q.buf.j.rowInds = [])
    {δ ε ρ κ Λ R : ℝ} (hδ : 0 ≤ δ) {N : Nat}
    (hlib : ∀ sp m q val, W.m.stdProblem H n = .ok (sp, m) → sp.prob.IsNlp q → EvalsTo q val → lib.Obeys q.ipoptArgs q ∧
      lib.Right (q.oracle val).Truthful q.ipoptArgs (q.ipoptArgs.ClaimFirstOrderWithin (q.oracle val) δ ε ρ κ Λ))
    (hN : ∀ sp m, W.m.stdProblem H n = .ok (sp, m) → sp.var2index.length = N)
    (hsign : ∀ sp status sol, W.m.SolvedBy H n (ipoptFn ps lib) sp status sol → ∀ k c v, (k, c) ∈ sp.jindex2constr →
      sol.nu[k]? = some (some v) → (c.kind = .lessEqual → v ≤ 0) ∧ (c.kind = .greaterEqual → 0 ≤ v))
    (hobj : ∃ v, W.m.minimised (mapEnv mod'.finalPrimals) = some v)
    {τ : Env (Option ℝ)} (hτ : W.m.Admissible τ) (hR : W.m.Apart R (mapEnv mod'.finalPrimals) τ)
    (hc : W.m.ConvexBetween (mapEnv mod'.finalPrimals) τ) :
    ∃ a b, W.m.minimised (mapEnv mod'.finalPrimals) = some a ∧ W.m.minimised τ = some b ∧
      a ≤ b + (δ * Λ + N * (ρ * (R + δ) + 2 * κ)) := by
  refine C69_near_optimal hr hs h hδ (fun sp status sol hsb => ?_) hobj hτ hR hc (ε := ε) (η := 0)
  obtain ⟨h1, h2⟩ := ipopt_kktWithin hr h hst honly hlib sp status sol hsb
  exact ⟨by obtain ⟨k, hsp, -⟩ := hsb; exact hN sp k hsp, h1, hsign sp status sol hsb, h2⟩

end

/-- Non-vacuity of C70: `minimise x subject to x >= 0 and x == 0` is solved with Ipopt, by a library that stops at `x = -1/1000` with multipliers
-1/3 of the row and 66/100 of the lower bound. The hypotheses of both theorems are met with `δ = ε = 1/1000`, `ρ = 1/100`, `κ = 0`, `Λ = 1/3`,
`N = 1` and `R = 1/1000`, for the only admissible assignment `x = 0`; the reported value `-1/1000` satisfies neither constraint exactly. -/
example : ∃ (lib : IpoptLib (Option ℝ)) (mod' : Model (Option ℝ)) (m : Nat),
    kW.m.solve HashOrder.listOrder (ipoptFn ipoptParams lib) 5 = .ok ((.ok (), mod'), m) ∧
    mod'.solverStatus = some .solved ∧ ReachableApiW HashOrder.listOrder kW 5 ∧ kW.m.NoSelfDiv ∧
    (∀ c ∈ kW.m.constraints, ∃ σ a b, c.lhs.evaluate σ = some a ∧ c.rhs.evaluate σ = some b) ∧
    (∀ sp m q, kW.m.stdProblem HashOrder.listOrder 5 = .ok (sp, m) → sp.prob.IsNlp q → q.na = 0 ∨ q.buf.j.rowInds = []) ∧
    (∀ sp m q val, kW.m.stdProblem HashOrder.listOrder 5 = .ok (sp, m) → sp.prob.IsNlp q → EvalsTo q val → lib.Obeys q.ipoptArgs q ∧
      lib.Right (fun c a => ¬ c.IsJacPattern → (q.oracle val).Truthful c a) q.ipoptArgs
        (q.ipoptArgs.ClaimMeetsWithin (q.oracle val) (1/1000) (1/1000)) ∧
      lib.Right (q.oracle val).Truthful q.ipoptArgs (q.ipoptArgs.ClaimFirstOrderWithin (q.oracle val) (1/1000) (1/1000) (1/100) 0 (1/3))) ∧
    (∀ sp m, kW.m.stdProblem HashOrder.listOrder 5 = .ok (sp, m) → sp.var2index.length = 1) ∧
    (∀ sp status sol, kW.m.SolvedBy HashOrder.listOrder 5 (ipoptFn ipoptParams lib) sp status sol → ∀ k c v, (k, c) ∈ sp.jindex2constr →
      sol.nu[k]? = some (some v) → (c.kind = .lessEqual → v ≤ 0) ∧ (c.kind = .greaterEqual → 0 ≤ v)) ∧
    kW.m.minimised (mapEnv mod'.finalPrimals) = some (-(1/1000)) ∧
    kW.m.Admissible (fun _ => some (some 0)) ∧ kW.m.Apart (1/1000) (mapEnv mod'.finalPrimals) (fun _ => some (some 0)) ∧
    kW.m.ConvexBetween (mapEnv mod'.finalPrimals) (fun _ => some (some 0)) := by
  obtain ⟨sp, m0, x0, mod', m, hsp, hvi, hlidx, hnlp, hsolve, hst, hval, hsv⟩ := kIpopt (-(1/1000)) (-1/3) (66/100)
  have hcs : ∀ c ∈ kW.m.constraints, c = ka ∨ c = kb := fun c hc => by
    simpa only [kW, List.mem_cons, List.not_mem_nil, or_false] using hc
  have hx : ∀ s, (mapEnv mod'.finalPrimals).mix (fun _ => some (some 0)) s 0 = some (some (-(1/1000) + s * (0 - -(1/1000)))) := by
    intro s; simp [Env.mix, hval]
  refine ⟨_, mod', m, hsolve, hst, kW_reach, kNoSelf, fun c hc => ?_, fun sp' m' q' hsp' hq' => ?_, fun sp' m' q' val hsp' hq' hv => ?_,
    fun sp' m' hsp' => ?_, ?_, ?_, ⟨fun c hc => ?_, fun x hxv hi => ?_, fun x hxv => ?_, fun c hc hk hb a b ha hb' => ?_⟩,
    ⟨fun x hxv => ?_, fun c hc hk hb a b a' b' ha hb1 ha' hb' => ?_⟩,
    ⟨convexBetween_affine (w := -(1/1000)) (d := 0 - -(1/1000)) fun s => ?_,
      fun c hc hk => convexBetween_affine (w := -(1/1000)) (d := 0 - -(1/1000)) fun s => ?_,
      fun c hc hk => convexBetween_affine (w := 1/1000) (d := -(0 - -(1/1000))) fun s => ?_⟩⟩
  · rcases hcs c hc with rfl | rfl <;> exact ⟨fun _ => some (some 0), 0, 0, by simp [ka, kb, kx, Node.evaluate], by simp [ka, kb, Node.evaluate]⟩
  · rw [hsp] at hsp'
    cases hsp'
    rw [(hnlp q').1 hq']
    exact .inr rfl
  · rw [hsp] at hsp'
    cases hsp'
    obtain rfl := (hnlp q').1 hq'
    obtain ⟨hg, hgr, hj⟩ := kq_oracle hv (-(1/1000))
    have hmeets : (kq x0).ipoptArgs.MeetsWithin ((kq x0).oracle val) (1/1000) (1/1000) [some (-(1/1000))] := by
      refine ⟨rfl, ?_, ?_⟩
      · intro i hi'
        obtain rfl : i = 0 := by simpa using hi'
        exact ⟨_, _, _, rfl, rfl, rfl, 0, -(1/1000), 10 ^ 8, rfl, rfl, rfl, by norm_num, by norm_num⟩
      · rw [hg]
        intro i hi'
        obtain rfl : i = 0 := by simpa using hi'
        exact ⟨_, _, _, rfl, rfl, rfl, 0, -(1/1000), 0, rfl, rfl, rfl, by norm_num, by norm_num⟩
    refine ⟨fun level sb x lamnu pi mu hx => ?_, fun level sb x lamnu pi mu hx => ?_, fun level sb x lamnu pi mu hx => ?_⟩
    · exact .values (x := [some (-(1/1000))]) ⟨rfl, rfl, rfl, rfl, rfl⟩ (.inl rfl) fun _ => .done ..
    · exact .call fun _ _ => .done fun _ => hmeets
    · refine .call fun _ _ => .done fun _ => ⟨hmeets, rfl, rfl, rfl, ?_, ?_, ?_⟩
      · intro t ht
        simp only [List.mem_singleton] at ht
        exact ⟨_, ht⟩
      · norm_num [abs_le]
      · intro i hi'
        obtain rfl : i = 0 := by simpa using hi'
        refine ⟨-(1/1000), 1, 66/100, 0, 0, 10 ^ 8, -1/3, rfl, by rw [hgr]; rfl, rfl, rfl, rfl, rfl, by norm_num, le_refl _, by norm_num,
          by norm_num, ?_, by norm_num [abs_le]⟩
        rw [hj]
        simp [total, mul_some]
  · rw [hsp] at hsp'
    cases hsp'
    rw [hvi]; rfl
  · rintro sp' st sol ⟨m1, hsp', hso⟩
    rw [hsp] at hsp'
    cases hsp'
    rw [hsv] at hso
    cases hso
    simp
  · simp [Model.minimised, kW, kx, Node.evaluate, hval]
  · rcases hcs c hc with rfl | rfl <;> exact ⟨0, 0, rfl, rfl, by simp [CKind.Rel, ka, kb]⟩
  · obtain rfl := kVars hxv
    simp [kx, Node.isInteger] at hi
  · obtain rfl := kVars hxv
    exact ⟨0, rfl, by norm_num, by norm_num⟩
  · rcases hcs c hc with rfl | rfl <;> simp only [ka, kb, kx, Node.evaluate, Option.some.injEq] at ha hb' <;> rw [← ha, ← hb'] <;> norm_num
  · obtain rfl := kVars hxv
    exact ⟨-(1/1000), 0, by simp [kx, Node.evaluate, hval], rfl, by norm_num [abs_le]⟩
  · rcases hcs c hc with rfl | rfl <;> simp only [ka, kb, kx, Node.evaluate, Option.some.injEq, hval] at ha hb1 ha' hb' <;>
      rw [← ha, ← hb1, ← ha', ← hb'] <;> norm_num [abs_le]
  · simp [Model.minimised, kW, kx, Node.evaluate, hx]
  · rcases hcs c hc with rfl | rfl <;> simp [ka, kb, kx, Node.evaluate, hx]
  · rcases hcs c hc with rfl | rfl <;> simp [ka, kb, kx, Node.evaluate, hx] <;> ring

end Verif
