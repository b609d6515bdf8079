import Verif.Spec.DualIpopt
import Verif.Proofs.Duals
import Verif.Props.Kkt
import Verif.Props.Convex
import Verif.Props.Ipopt3

/-! # Property C63: multipliers from the model to the answer, through Ipopt -/

namespace Verif

open Exact

set_option linter.unusedSectionVars false
set_option linter.unusedSimpArgs false

theorem filter_dense (a : Coo (Option ℝ)) (k i : Nat) :
    ((a.triplets.filter fun t => t.2.1 == i).filter fun t => t.1 == k).map (fun t => t.2.2) = valuesAt i (rowOf a.triplets k) := by
  unfold valuesAt rowOf
  rw [List.filter_map, List.map_map, List.filter_filter, List.filter_filter]
  congr 1
  refine List.filter_congr fun t _ => ?_
  simp [Bool.and_comm]

theorem sum_list_range (n : Nat) (f : Nat → ℝ) : ((List.range n).map f).sum = ∑ k ∈ Finset.range n, f k := by
  induction n with
  | zero => simp
  | succ n ih => rw [List.range_succ, Finset.sum_range_succ, List.map_append, List.sum_append, ih]; simp

theorem total_append_some {l l' : List (Option ℝ)} {s : ℝ} (h : total (l ++ l') = some s) :
    ∃ a b, total l = some a ∧ total l' = some b ∧ s = a + b := by
  obtain ⟨L, hL, rfl⟩ := total_eq_some h
  obtain ⟨L1, L2, rfl, rfl, rfl⟩ := List.append_eq_map_iff.1 hL
  exact ⟨_, _, total_some _, total_some _, by simp⟩

/-- The entries of column `i`, times multipliers, by rows. -/
theorem column_by_row {a : Coo (Option ℝ)} {i n off : Nat} {lam : List (Option ℝ)} {s : ℝ}
    (hrow : ∀ t ∈ a.triplets, t.2.1 = i → off + t.1 < lam.length → t.1 < n)
    (h : total ((a.triplets.filter fun t => t.2.1 == i).map fun t => t.2.2 *. (lam[off + t.1]?).getD none) = some s) :
    (∀ k, ∃ w, a.dense k i = some w) ∧
    s = ((List.range n).map fun k => (a.dense k i).getD 0 * ((lam[off + k]?).getD none).getD 0).sum := by
  have hnum : ∀ t ∈ a.triplets.filter fun t => t.2.1 == i, (∃ v, t.2.2 = some v) ∧ ∃ l, lam[off + t.1]? = some (some l) := by
    intro t ht
    rw [total_osum] at h
    obtain ⟨y, hy⟩ := (osum_eq_some h).1 _ (List.mem_map.2 ⟨t, ht, rfl⟩)
    rw [mul_eq_some] at hy
    obtain ⟨v, l, hv, hl, -⟩ := hy
    refine ⟨⟨v, hv⟩, l, ?_⟩
    cases hc : lam[off + t.1]? with
    | none => rw [hc] at hl; simp at hl
    | some w => rw [hc] at hl; simp at hl; rw [hl]
  have hd : ∀ k, ∃ w, a.dense k i = some w := by
    intro k
    unfold Coo.dense
    rw [← filter_dense]
    have : ∀ ts : List (Nat × Nat × Option ℝ), (∀ t ∈ ts, ∃ v, t.2.2 = some v) → ∃ w, total (ts.map fun t => t.2.2) = some w := by
      intro ts hts
      refine ⟨(ts.map fun t => t.2.2.getD 0).sum, ?_⟩
      rw [← total_some, List.map_map]
      congr 1
      refine List.map_congr_left fun t ht => ?_
      obtain ⟨v, hv⟩ := hts t ht
      simp [hv]
    exact this _ fun t ht => (hnum t (List.mem_filter.1 ht).1).1
  refine ⟨hd, ?_⟩
  have e1 : ((a.triplets.filter fun t => t.2.1 == i).map fun t => t.2.2 *. (lam[off + t.1]?).getD none) =
      (a.triplets.filter fun t => t.2.1 == i).map fun t => t.2.2 *. some (((lam[off + t.1]?).getD none).getD 0) := by
    refine List.map_congr_left fun t ht => ?_
    obtain ⟨-, l, hl⟩ := hnum t ht
    rw [hl]; rfl
  rw [e1, total_by_key n (fun k => k) (fun _ _ h => h) (fun t : Nat × Nat × Option ℝ => t.2.2) (fun t => t.1)
    (fun k => ((lam[off + k]?).getD none).getD 0) (fun k => (a.dense k i).getD 0) _ (fun t ht => ?_) (fun k hk => ?_)] at h
  · injection h with h
    rw [← h, sum_list_range]
  · obtain ⟨h1, h2⟩ := List.mem_filter.1 ht
    obtain ⟨-, l, hl⟩ := hnum t ht
    exact ⟨t.1, hrow t h1 (by simpa using h2) (List.getElem?_eq_some_iff.1 hl).1, rfl⟩
  · rw [filter_dense]
    obtain ⟨w, hw⟩ := hd k
    change a.dense k i = _
    rw [hw]; rfl


variable {H : HashOrder} {W : World (Option ℝ)} {n m : Nat}

/-- The entries of a column of the Jacobian given to Ipopt, times multipliers: those of `A` and those of `J`, by rows. -/
theorem jac_column {q : Minlp (Option ℝ)} {val : List (Option ℝ) → EvalBuf (Option ℝ)} (hs : q.Sound) {x lamnu : List (Option ℝ)}
    (hlen : lamnu.length = q.na + q.nf) {i : Nat} {s : ℝ}
    (hsum : total ((((q.oracle val).jac x).filter fun e => e.2.1 == (i : Int)).map fun e => e.2.2 *. (lamnu[e.1.toNat]?).getD none) = some s) :
    (∀ k, ∃ w, q.a.dense k i = some w) ∧ (∀ k, ∃ w, (val x).j.dense k i = some w) ∧
    s = ((List.range q.na).map fun k => (q.a.dense k i).getD 0 * ((lamnu[0 + k]?).getD none).getD 0).sum +
      ((List.range q.nf).map fun k => ((val x).j.dense k i).getD 0 * ((lamnu[q.na + k]?).getD none).getD 0).sum := by
  have hjac : (((q.oracle val).jac x).filter fun e => e.2.1 == (i : Int)).map (fun e => e.2.2 *. (lamnu[e.1.toNat]?).getD none) =
      ((q.a.triplets.filter fun t => t.2.1 == i).map fun t => t.2.2 *. (lamnu[0 + t.1]?).getD none) ++
      ((val x).j.triplets.filter fun t => t.2.1 == i).map fun t => t.2.2 *. (lamnu[q.na + t.1]?).getD none := by
    simp only [Minlp.oracle, jacobianEntries, List.filter_append, List.map_append, List.filter_map, List.map_map]
    have f1 : ∀ (ts : List (Nat × Nat × Option ℝ)) (g : Nat × Nat × Option ℝ → Int × Int × Option ℝ) (g' : Nat × Nat × Option ℝ → Nat)
        (_ : ∀ t, (g t).2.1 = (t.2.1 : Int)) (_ : ∀ t, (g t).2.2 = t.2.2) (_ : ∀ t, (g t).1.toNat = g' t),
        (ts.filter ((fun e : Int × Int × Option ℝ => e.2.1 == (i : Int)) ∘ g)).map ((fun e => e.2.2 *. (lamnu[e.1.toNat]?).getD none) ∘ g) =
          (ts.filter fun t => t.2.1 == i).map fun t => t.2.2 *. (lamnu[g' t]?).getD none := by
      intro ts g g' h1 h2 h3
      have e : (ts.filter ((fun e : Int × Int × Option ℝ => e.2.1 == (i : Int)) ∘ g)) = ts.filter fun t => t.2.1 == i := by
        refine List.filter_congr fun t _ => ?_
        simp [h1]
      rw [e]
      refine List.map_congr_left fun t _ => ?_
      simp only [Function.comp, h2, h3]
    rw [f1 _ _ (fun t => 0 + t.1) (fun t => rfl) (fun t => rfl) (fun t => by simp),
      f1 _ _ (fun t => q.na + t.1) (fun t => rfl) (fun t => rfl) (fun t => rfl)]
  rw [hjac] at hsum
  obtain ⟨sa, sj, e1, e2, rfl⟩ := total_append_some hsum
  have hrowA : ∀ t ∈ q.a.triplets, t.1 < q.na := fun t ht => by
    have := (hs.aIn t ht).1
    rw [← hs.b] at this
    exact this
  obtain ⟨d1, rfl⟩ := column_by_row (n := q.na) (off := 0) (lam := lamnu) (fun t ht _ _ => hrowA t ht) e1
  obtain ⟨d2, rfl⟩ := column_by_row (n := q.nf) (off := q.na) (lam := lamnu) (by intro t _ _ h; omega) e2
  exact ⟨d1, d2, rfl⟩

/-- First-order conditions of the problem given to Ipopt are those of the standard problem. -/
theorem firstOrder_kkt {q : Minlp (Option ℝ)} {val : List (Option ℝ) → EvalBuf (Option ℝ)} (hs : q.Sound) (hv : EvalsTo q val)
    (hp : ∀ i : Nat, q.p[i]? ≠ some true) {x lamnu pi mu : List (Option ℝ)} (hl : q.l.length = q.nx) (hu : q.u.length = q.nx)
    (h : q.ipoptArgs.FirstOrder (q.oracle val) x lamnu pi mu) :
    q.Kkt ⟨x, (lamnu.take q.na).map FloatOps.neg, (lamnu.drop q.na).map FloatOps.neg, mu, pi⟩ := by
  have hf := (meets_iff hs hv hp x).1 h.meets
  have hlen : lamnu.length = q.na + q.nf := by
    have := h.lamnuLen
    simp only [Minlp.ipoptArgs] at this
    exact_mod_cast this
  have hpl : pi.length = q.nx := by simpa [Minlp.ipoptArgs] using h.piLen
  have hml : mu.length = q.nx := by simpa [Minlp.ipoptArgs] using h.muLen
  have hvec : ∀ (L : List (Option ℝ)) (N : Nat) (f : Nat → ℝ), L.length = N → (∀ j < N, L[j]? = some (some (f j))) → L = vec N f := by
    intro L N f hl h
    refine List.ext_getElem? fun j => ?_
    by_cases hj : j < N
    · rw [h j hj, vec_get hj]
    · rw [List.getElem?_eq_none (by omega), List.getElem?_eq_none (by simp; omega)]
  have hst : ∀ i < q.nx, _ := fun i hi => h.stationary i (by rw [hf.len]; exact hi)
  have hlam : ∀ k < q.na + q.nf, lamnu[k]? = some (some (((lamnu[k]?).getD none).getD 0)) := by
    intro k hk
    obtain ⟨v, hv⟩ := h.numbers (lamnu[k]'(by omega)) (List.getElem_mem _)
    rw [List.getElem?_eq_getElem (by omega), hv]; rfl
  let X : List (Option ℝ) → Nat → ℝ := fun L k => ((L[k]?).getD none).getD 0
  have hX : ∀ (L : List (Option ℝ)) (k : Nat) (v : ℝ), L[k]? = some (some v) → X L k = v := fun L k v h => by simp [X, h]
  refine ⟨hf, { q with buf := val x }, X x, fun k => - X lamnu k, fun k => - X lamnu (q.na + k), X mu, X pi, X q.l, X q.u,
    hv.eval [] q rfl x hf.len, hvec _ _ _ hf.len fun j hj => ?_, hvec _ _ _ (by simp [hlen]) fun j hj => ?_,
    hvec _ _ _ (by simp [hlen]) fun j hj => ?_, hvec _ _ _ hml fun j hj => ?_, hvec _ _ _ hpl fun j hj => ?_, hvec _ _ _ hl fun j hj => ?_,
    hvec _ _ _ hu fun j hj => ?_, fun i hi => ?_⟩
  · obtain ⟨v, g, zL, zU, lo, up, s, h1, -⟩ := hst j hj
    rw [h1, hX _ _ _ h1]
  · rw [List.getElem?_map, List.getElem?_take_of_lt hj, hlam j (by omega)]; rfl
  · rw [List.getElem?_map, List.getElem?_drop, hlam (q.na + j) (by omega)]; rfl
  · obtain ⟨v, g, zL, zU, lo, up, s, -, -, -, h1, -⟩ := hst j hj
    rw [h1, hX _ _ _ h1]
  · obtain ⟨v, g, zL, zU, lo, up, s, -, -, h1, -⟩ := hst j hj
    rw [h1, hX _ _ _ h1]
  · obtain ⟨v, g, zL, zU, lo, up, s, -, -, -, -, h1, -⟩ := hst j hj
    change q.l[j]? = _ at h1
    rw [h1, hX _ _ _ h1]
  · obtain ⟨v, g, zL, zU, lo, up, s, -, -, -, -, -, h1, -⟩ := hst j hj
    change q.u[j]? = _ at h1
    rw [h1, hX _ _ _ h1]
  · obtain ⟨v, g, zL, zU, lo, up, s, h1, h2, h3, h4, h5, h6, p1, p2, p3, p4, hsum, heq⟩ := hst i hi
    change q.l[i]? = _ at h5
    change q.u[i]? = _ at h6
    rw [hX _ _ _ h1, hX _ _ _ h3, hX _ _ _ h4, hX _ _ _ h5, hX _ _ _ h6]
    obtain ⟨d1, d2, rfl⟩ := jac_column hs hlen hsum
    refine ⟨p2, p1, p4, p3, g, fun k => (q.a.dense k i).getD 0, fun k => ((val x).j.dense k i).getD 0, h2, fun k _ => ?_, fun k _ => ?_, ?_⟩
    · obtain ⟨w, hw⟩ := d1 k
      simp only [hw]; rfl
    · obtain ⟨w, hw⟩ := d2 k
      show (val x).j.dense k i = _
      simp only [hw]; rfl
    · simp only [sum_list_range, X, Nat.zero_add] at heq ⊢
      simp only [mul_neg, Finset.sum_neg_distrib]
      linarith

/-- What Ipopt answers satisfies the first-order conditions of the standard problem. -/
theorem ipopt_kkt (hr : ReachableApiW H W n) {ps : Params (Option ℝ)} {lib : IpoptLib (Option ℝ)} {mod' : Model (Option ℝ)}
    (h : W.m.solve H (ipoptFn ps lib) n = .ok ((.ok (), mod'), m)) (hst : mod'.solverStatus = some .solved)
    (honly : ∀ sp m q, W.m.stdProblem H n = .ok (sp, m) → sp.prob.IsNlp q → q.na = 0 ∨ q.buf.j.rowInds = [])
    (hlib : ∀ sp m q val, W.m.stdProblem H n = .ok (sp, m) → sp.prob.IsNlp q → EvalsTo q val → lib.Obeys q.ipoptArgs q ∧
      lib.Right (q.oracle val).Truthful q.ipoptArgs (q.ipoptArgs.ClaimFirstOrder (q.oracle val))) :
    ∀ sp status sol, W.m.SolvedBy H n (ipoptFn ps lib) sp status sol → ∃ q ∈ sp.prob.views, q.Kkt sol := by
  intro sp status sol hs
  have hstat := solvedBy_unique h hs
  rw [hst] at hstat
  injection hstat with hstat
  obtain ⟨k, hsp, hsol⟩ := hs
  obtain ⟨q, val, code, x, lamnu, pi, mu, hq, hview, hsound, hv, hclaim, hc, -, hsol', -⟩ := ipopt_claim hr.reachable hsp hsol
    (T := fun q val => (q.oracle val).Truthful) (claim := fun q val => q.ipoptArgs.ClaimFirstOrder (q.oracle val))
    (fun q val hq _ c a h1 => h1 fun _ => honly sp k q hsp hq) (fun q val hq hv => hlib sp k q val hsp hq hv)
  have hm := hclaim (hc.1 hstat.symm)
  refine ⟨q, hview, ?_⟩
  have l1 : x.length = q.nx := by have := hm.meets.len; simp only [Minlp.ipoptArgs] at this; exact_mod_cast this
  have l2 : lamnu.length = q.na + q.nf := by have := hm.lamnuLen; simp only [Minlp.ipoptArgs] at this; exact_mod_cast this
  have l3 : pi.length = q.nx := by have := hm.piLen; simp only [Minlp.ipoptArgs] at this; exact_mod_cast this
  have l4 : mu.length = q.nx := by have := hm.muLen; simp only [Minlp.ipoptArgs] at this; exact_mod_cast this
  rw [hsol' l1 l2 l3 l4]
  have hlu : q.l.length = q.nx ∧ q.u.length = q.nx := by
    obtain ⟨hp, k, comp, e, ps, cols, xes, ves, hf, -⟩ := hr.reachable.facts hsp
    rcases hf.views_eq hview with ⟨-, rfl⟩ | rfl <;>
      simp [stdLinear, stdMinlp, Minlp.initial, Minlp.nx, stdL, stdU, stdA, Coo.cols]
  exact firstOrder_kkt hsound hv (nlp_continuous hr.reachable hsp hq) hlu.1 hlu.2 hm

/-- C63: a model whose nonlinear rows or whose linear rows are absent is solved with Ipopt, by a native library that obeys the `new_x`
protocol and that, whenever the answers it gets are truthful, ends with a point and multipliers that satisfy the first-order conditions of
the problem given to it, in its own signs. If `solve` succeeds and reports `Solved`, then the reported values and duals satisfy
the first-order conditions of the model (see C59). Missing: models with both kinds of rows, for which the pattern of the Jacobian
is not told truthfully (`C58_counterexample`). -/
theorem C63_duals_partial (hr : ReachableApiW H W n) (hs : W.m.NoSelfDiv) (hnd : W.m.constraints.Nodup) {ps : Params (Option ℝ)}
    {lib : IpoptLib (Option ℝ)} {mod' : Model (Option ℝ)}
    (h : W.m.solve H (ipoptFn ps lib) n = .ok ((.ok (), mod'), m)) (hst : mod'.solverStatus = some .solved)
    (honly : ∀ sp m q, W.m.stdProblem H n = .ok (sp, m) → sp.prob.IsNlp q → q.na = 0 ∨ q.buf.j.rowInds = [])
    (hlib : ∀ sp m q val, W.m.stdProblem H n = .ok (sp, m) → sp.prob.IsNlp q → EvalsTo q val → lib.Obeys q.ipoptArgs q ∧
      lib.Right (q.oracle val).Truthful q.ipoptArgs (q.ipoptArgs.ClaimFirstOrder (q.oracle val)))
    (hd : ∀ c ∈ W.m.constraints, ∃ σ a b, c.lhs.evaluate σ = some a ∧ c.rhs.evaluate σ = some b)
    (hobj : ∃ v, W.m.minimised (mapEnv mod'.finalPrimals) = some v) (hbox : W.m.InsideBox (mapEnv mod'.finalPrimals)) :
    ∃ y : Constraint (Option ℝ) → ℝ,
      (∀ c ∈ W.m.constraints, getC mod'.finalDuals c = some (some (y c)) ∨ getC mod'.finalDuals c = none ∧ y c = 0) ∧
      W.m.KktAt (mapEnv mod'.finalPrimals) y :=
  C59_kkt hr hs hnd h (ipopt_kkt hr h hst honly hlib) hd hobj hbox

/-- C63: and then the reported values satisfy the model, and no assignment that satisfies it, inside or outside the box, has a better
objective value if the model is convex between the reported values and it: a local solver's answer is a global one. -/
theorem C63_optimal_partial (hr : ReachableApiW H W n) (hs : W.m.NoSelfDiv) (hnd : W.m.constraints.Nodup) {ps : Params (Option ℝ)}
    {lib : IpoptLib (Option ℝ)} {mod' : Model (Option ℝ)}
    (h : W.m.solve H (ipoptFn ps lib) n = .ok ((.ok (), mod'), m)) (hst : mod'.solverStatus = some .solved)
    (honly : ∀ sp m q, W.m.stdProblem H n = .ok (sp, m) → sp.prob.IsNlp q → q.na = 0 ∨ q.buf.j.rowInds = [])
    (hlib : ∀ sp m q val, W.m.stdProblem H n = .ok (sp, m) → sp.prob.IsNlp q → EvalsTo q val → lib.Obeys q.ipoptArgs q ∧
      lib.Right (q.oracle val).Truthful q.ipoptArgs (q.ipoptArgs.ClaimFirstOrder (q.oracle val)))
    (hd : ∀ c ∈ W.m.constraints, ∃ σ a b, c.lhs.evaluate σ = some a ∧ c.rhs.evaluate σ = some b)
    (hobj : ∃ v, W.m.minimised (mapEnv mod'.finalPrimals) = some v) (hbox : W.m.InsideBox (mapEnv mod'.finalPrimals)) :
    W.m.Satisfies (mapEnv mod'.finalPrimals) ∧
    ∀ τ, W.m.Satisfies τ → W.m.ConvexBetween (mapEnv mod'.finalPrimals) τ →
      ∃ a b, W.m.minimised (mapEnv mod'.finalPrimals) = some a ∧ W.m.minimised τ = some b ∧ a ≤ b :=
  C60_convex hr hs hnd h (ipopt_kkt hr h hst honly hlib) hd hobj hbox

/-! ## Concrete case -/

/-- A native library that evaluates the objective at `t` and then reports this point, with multiplier `a` of the row and `b` of the lower bound. -/
noncomputable def kLibAt (t a b : ℝ) : IpoptLib (Option ℝ) where
  create _ := true
  addInt _ _ := true
  addStr _ _ := true
  solve args _ _ _ _ _ _ :=
    .call (.f args.n (some [some t]) 1 true true) fun _ => .done 0 [some t] [some a] [some b] [some 0]

/-- The problem that it is given. -/
noncomputable def kq (x0 : List (Option ℝ)) : Minlp (Option ℝ) :=
  Minlp.initial (Coo.fromNnz (1, 1) 0) (⟨(1, 1), [0], [0], [some 1]⟩ : Coo (Option ℝ)) [some 0] (Coo.fromNnz (0, 1) 0) [] [some 0]
    [some (10 ^ 8)] [false] (some x0) (linearEval [some 1])

theorem kq_oracle {x0 : List (Option ℝ)} {val : List (Option ℝ) → EvalBuf (Option ℝ)} (hv : EvalsTo (kq x0) val) (t : ℝ) :
    ((kq x0).oracle val).g [some t] = [some t] ∧ ((kq x0).oracle val).grad [some t] = [some 1] ∧
      ((kq x0).oracle val).jac [some t] = [(0, 0, some 1)] := by
  have hi : LinInv [some 1] (⟨(1, 1), [0], [0], [some 1]⟩ : Coo (Option ℝ)) [some 0] [some 0] [some (10 ^ 8)] [false] (some x0) (kq x0) :=
    LinInv.initial rfl
  have hev := hi.evaluate (x := [some t]) rfl
  have hbuf := hv.eval [] (kq x0) rfl [some t] rfl
  rw [hev] at hbuf
  injection hbuf with hbuf
  have hb1 : (val [some t]).gphi = [some 1] := by
    have := congrArg (fun p : Minlp (Option ℝ) => p.buf.gphi) hbuf
    exact this.symm
  have hb2 : (val [some t]).f = [] := by
    have := congrArg (fun p : Minlp (Option ℝ) => p.buf.f) hbuf
    exact this.symm
  have hb3 : (val [some t]).j.triplets = [] := by
    have := congrArg (fun p : Minlp (Option ℝ) => p.buf.j.triplets) hbuf
    exact this.symm
  refine ⟨?_, ?_, ?_⟩
  · simp only [Minlp.oracle, constraintValues, hb2]
    simp [kq, Minlp.initial, Coo.triplets, rowOf]
  · simp only [Minlp.oracle, hb1]
  · simp only [Minlp.oracle, jacobianEntries, hb3]
    rfl

/-- `minimise x subject to x >= 0 and x == 0`, solved with Ipopt and such a library. -/
theorem kIpopt (t a b : ℝ) : ∃ sp m0 x0 mod' m, kW.m.stdProblem HashOrder.listOrder 5 = .ok (sp, m0) ∧ sp.var2index = [(kx, 0)] ∧
    (0, ka) ∈ sp.lindex2constr ∧ (∀ q', sp.prob.IsNlp q' ↔ q' = kq x0) ∧
    kW.m.solve HashOrder.listOrder (ipoptFn ipoptParams (kLibAt t a b)) 5 = .ok ((.ok (), mod'), m) ∧
    mod'.solverStatus = some .solved ∧ mapEnv mod'.finalPrimals 0 = some (some t) ∧
    ipoptFn ipoptParams (kLibAt t a b) sp.prob = .ok (.ok (.solved, ⟨[some t], [some (-a)], [], [some 0], [some b]⟩)) := by
  obtain ⟨sp, m0, p, x0, hsp, hvi, hprob, hlidx, -, hx0, hqd⟩ := kDataFull
  change _ = kq x0 at hqd
  have hi : LinInv [some 1] (⟨(1, 1), [0], [0], [some 1]⟩ : Coo (Option ℝ)) [some 0] [some 0] [some (10 ^ 8)] [false] (some x0) (kq x0) :=
    LinInv.initial rfl
  have hview : kq x0 ∈ sp.prob.views := by rw [hprob]; simp [Problem.views, hqd]
  have hnx : (kq x0).nx = 1 := rfl
  have hna : (kq x0).na = 1 := rfl
  have hnf : (kq x0).nf = 0 := rfl
  have hj0 : (kq x0).buf.j.rowInds = [] := rfl
  have hev := hi.evaluate (x := [some t]) rfl
  rw [unrolledDot_exact] at hev
  set sol : Sol (Option ℝ) := ⟨[some t], [some (-a)], [], [some 0], [some b]⟩ with hsold
  have hsv : ipoptFn ipoptParams (kLibAt t a b) sp.prob = .ok (.ok (.solved, sol)) := by
    have hrun : ((kLibAt t a b).solve (kq x0).ipoptArgs 5 "no" x0 [some 0] [some 0] [some 0]).run (kq x0) =
        .ok ({ kq x0 with buf := { (kq x0).buf with phi := some 0 +. (some 1 *. some t), gphi := [some 1] } }, 0, [some t], [some a], [some b],
          [some 0]) := by
      have hn : ((kq x0).ipoptArgs.n != ((kq x0).nx : Int)) = false := by simp [Minlp.ipoptArgs]
      simp only [kLibAt, Native.run, Call.exec, evalFCb, evalIfNew, Bool.not_true, Bool.or_self, Bool.false_eq_true, if_false, hn, BEq.rfl, if_true,
        hnx, List.take_succ_cons, List.take_zero, hev, R.ok_bind]
      rfl
    have hargs : (⟨1, (kq x0).l, (kq x0).u, 1, [some 0], [some 0], 1, 0, 0⟩ : IpoptArgs (Option ℝ)) = (kq x0).ipoptArgs := rfl
    have hN : ipoptSolveNlp ipoptParams (kLibAt t a b) (kq x0) =
        .ok ⟨{ kq x0 with buf := { (kq x0).buf with phi := some 0 +. (some 1 *. some t), gphi := [some 1] } }, 0, .ok (.solved, sol)⟩ := by
      have g1 : getParam (ipoptParams : Params (Option ℝ)) "print_level" = some (.int 5) := rfl
      have g2 : getParam (ipoptParams : Params (Option ℝ)) "sb" = some (.str "no") := rfl
      have t1 : toI32 (kq x0).nx = .ok 1 := by simp [hnx, toI32]
      have t2 : toI32 ((kq x0).na + (kq x0).nf) = .ok 1 := by simp [hna, hnf, toI32]
      have t3 : toI32 ((kq x0).a.nnz + (kq x0).buf.j.nnz) = .ok 1 := by
        have : (kq x0).a.nnz + (kq x0).buf.j.nnz = 1 := rfl
        simp [this, toI32]
      have t4 : toI32 ((kq x0).buf.hphi.nnz + (kq x0).hcomb.nnz) = .ok 0 := by
        have : (kq x0).buf.hphi.nnz + (kq x0).hcomb.nnz = 0 := rfl
        simp [this, toI32]
      have t5 : ("no".toList.contains (Char.ofNat 0)) = false := by decide
      have t6 : (kq x0).x0 = some x0 := rfl
      have t7 : (x0.length == (kq x0).nx) = true := by rw [hnx, hx0]; rfl
      have t8 : List.replicate ((kq x0).na + (kq x0).nf) (zero : Option ℝ) = [some 0] := by rw [hna, hnf]; rfl
      have t9 : List.replicate (kq x0).nx (zero : Option ℝ) = [some 0] := by rw [hnx]; rfl
      unfold ipoptSolveNlp
      simp only [t1, t2, t3, t4, R.ok_bind, g1, g2, t5, t6, t7, t8, t9, if_true, hargs, show (kLibAt t a b).create (kq x0).ipoptArgs = true from rfl,
        show (kLibAt t a b).addInt "print_level" 5 = true from rfl, show (kLibAt t a b).addStr "sb" "no" = true from rfl, Bool.not_true, Bool.false_eq_true, if_false,
        hrun]
      rw [overwrite_same (by rw [hx0]; rfl), overwrite_same (old := [some 0]) (new := [some a]) rfl, overwrite_same (old := [some 0]) (new := [some b]) rfl,
        overwrite_same (old := [some 0]) (new := [some 0]) rfl, ipoptSol_ok rfl (Nat.le_refl _) rfl rfl]
      have : (FloatOps.neg (some a) : Option ℝ) = some (-a) := rfl
      simp [R.ok_bind, hsold, ipoptStatus, Minlp.na, Minlp.nf, kq, Minlp.initial, this]
    simp only [ipoptFn, ipoptSolve, hprob, hqd, hN, R.ok_bind]
  obtain ⟨res, mod', m, hsolve, -, hok⟩ := C55_fits (solver := ipoptFn ipoptParams (kLibAt t a b)) kW_reach.reachable hsp hsv (by
    intro st sol' he
    rw [Except.ok.injEq, Prod.mk.injEq] at he
    refine ⟨kq x0, hview, ?_⟩
    rw [← he.2]
    exact ⟨by rw [hnx]; rfl, by rw [hna]; rfl, by rw [hnf]; rfl, by rw [hnx]; rfl, by rw [hnx]; rfl⟩)
  obtain ⟨rfl, hst⟩ := hok _ _ rfl
  have hval := kVal hsolve hsp hvi hsv rfl
  refine ⟨sp, m0, x0, mod', m, hsp, hvi, hlidx, fun q' => ⟨fun hq' => ?_, ?_⟩, hsolve, hst, hval, hsv⟩
  · rcases hq' with hq' | ⟨q'', hq', rfl⟩ <;> rw [hprob] at hq' <;> cases hq'
    exact hqd
  · rintro rfl
    exact .inr ⟨p, hprob, hqd.symm⟩

/-- The library of the example of C63. -/
noncomputable abbrev kLib : IpoptLib (Option ℝ) := kLibAt 0 (-1/3) (2/3)

/-- Non-vacuity of C63: `minimise x subject to x >= 0 and x == 0` is solved with Ipopt, by a library that reports the multiplier -1/3 of the row and
2/3 of the lower bound; all hypotheses of the theorems are met, and the reported duals are 2/3 of `x >= 0` and 1/3 of `x == 0`. -/
example : ∃ mod' m, kW.m.solve HashOrder.listOrder (ipoptFn ipoptParams kLib) 5 = .ok ((.ok (), mod'), m) ∧
    mod'.solverStatus = some .solved ∧ ReachableApiW HashOrder.listOrder kW 5 ∧ kW.m.NoSelfDiv ∧ kW.m.constraints.Nodup ∧
    (∀ sp m q, kW.m.stdProblem HashOrder.listOrder 5 = .ok (sp, m) → sp.prob.IsNlp q → q.na = 0 ∨ q.buf.j.rowInds = []) ∧
    (∀ sp m q val, kW.m.stdProblem HashOrder.listOrder 5 = .ok (sp, m) → sp.prob.IsNlp q → EvalsTo q val → kLib.Obeys q.ipoptArgs q ∧
      kLib.Right (q.oracle val).Truthful q.ipoptArgs (q.ipoptArgs.ClaimFirstOrder (q.oracle val))) ∧
    (∀ c ∈ kW.m.constraints, ∃ σ a b, c.lhs.evaluate σ = some a ∧ c.rhs.evaluate σ = some b) ∧
    (∃ v, kW.m.minimised (mapEnv mod'.finalPrimals) = some v) ∧ kW.m.InsideBox (mapEnv mod'.finalPrimals) ∧
    getC mod'.finalDuals ka = some (some (2/3)) ∧ getC mod'.finalDuals kb = some (some (1/3)) := by
  obtain ⟨sp, m0, x0, mod', m, hsp, hvi, hlidx, hnlp, hsolve, hst, hval, hsv⟩ := kIpopt 0 (-1/3) (2/3)
  set sol : Sol (Option ℝ) := ⟨[some 0], [some (-(-1/3))], [], [some 0], [some (2/3)]⟩ with hsold
  refine ⟨mod', m, hsolve, hst, kW_reach, kNoSelf, by simp [kW, ka, kb], ?_, ?_, ?_, ?_, kBox hval, ?_, ?_⟩
  · intro sp' m' q' hsp' hq'
    rw [hsp] at hsp'
    cases hsp'
    rw [(hnlp q').1 hq']
    exact .inr rfl
  · intro sp' m' q' val hsp' hq' hv
    rw [hsp] at hsp'
    cases hsp'
    obtain rfl := (hnlp q').1 hq'
    constructor
    · intro level sb x lamnu pi mu hx
      exact .values (x := [some 0]) ⟨rfl, rfl, rfl, rfl, rfl⟩ (.inl rfl) fun _ => .done ..
    · intro level sb x lamnu pi mu hx
      refine .call fun _ _ => .done fun _ => ?_
      obtain ⟨hg, hgr, hj⟩ := kq_oracle hv 0
      refine ⟨⟨rfl, ?_, ?_⟩, rfl, rfl, rfl, ?_, ?_⟩
      · intro i hi'
        obtain rfl : i = 0 := by simpa using hi'
        exact ⟨_, _, _, rfl, rfl, rfl, 0, 0, 10 ^ 8, rfl, rfl, rfl, le_refl _, by norm_num⟩
      · rw [hg]
        intro i hi'
        obtain rfl : i = 0 := by simpa using hi'
        exact ⟨_, _, _, rfl, rfl, rfl, 0, 0, 0, rfl, rfl, rfl, le_refl _, le_refl _⟩
      · intro t ht
        simp only [List.mem_singleton] at ht
        exact ⟨_, ht⟩
      · intro i hi'
        obtain rfl : i = 0 := by simpa using hi'
        refine ⟨0, 1, 2/3, 0, 0, 10 ^ 8, -1/3, rfl, by rw [hgr]; rfl, rfl, rfl, rfl, rfl, by norm_num, le_refl _, by norm_num,
          by norm_num, ?_, by norm_num⟩
        rw [hj]
        simp [total, mul_some]
  · intro c hc
    simp only [kW, List.mem_cons, List.not_mem_nil, or_false] at hc
    rcases hc with rfl | rfl <;> exact ⟨fun _ => some (some 0), 0, 0, by simp [ka, kb, kx, Node.evaluate], by simp [ka, kb, Node.evaluate]⟩
  · exact ⟨0, by simp [Model.minimised, kW, kx, Node.evaluate, hval]⟩
  · obtain ⟨sp', st, sol', ⟨k1, h1, h2⟩, -, -, dL, -⟩ := C32_duals_partial kW_reach hsolve
    rw [hsp] at h1
    cases h1
    rw [hsv] at h2
    cases h2
    rcases dL ka (by simp [kW]) rfl with ⟨i, w, -, h3, h4⟩ | ⟨-, h3, -⟩
    · have hi : i = 0 := by
        have := (List.getElem?_eq_some_iff.1 h3).1
        simpa [hsold] using this
      subst hi
      simp only [hsold, List.getElem?_cons_zero, Option.some.injEq] at h3
      rw [h4, ← h3]
    · exact absurd hlidx (h3 0)
  · obtain ⟨sp', st, sol', ⟨k1, h1, h2⟩, dE, -⟩ := C32_duals_partial kW_reach hsolve
    rw [hsp] at h1
    cases h1
    rw [hsv] at h2
    cases h2
    obtain ⟨k2, w, h4, h3⟩ := dE kb (by simp [kW]) rfl
    rcases h3 with ⟨-, h3⟩ | ⟨-, h3⟩
    · have hi : k2 = 0 := by
        have := (List.getElem?_eq_some_iff.1 h3).1
        simpa [hsold] using this
      subst hi
      simp only [hsold, List.getElem?_cons_zero, Option.some.injEq] at h3
      rw [h4, ← h3]
      norm_num
    · simp [hsold] at h3

end Verif
