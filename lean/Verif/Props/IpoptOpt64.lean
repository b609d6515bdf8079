import Verif.Spec.IpoptOpt64
import Verif.Props.IpoptWithin64

/-! # C89: linear models solved with Ipopt in double precision are nearly optimal -/

namespace Verif

set_option linter.unusedSectionVars false

section
variable [Libm] {H : HashOrder} {W : World F64} {n m : ℕ}

theorem range_getD_sum (L : List ℝ) : ∑ i ∈ Finset.range L.length, L.getD i 0 = L.sum := by
  induction L with
  | nil => simp
  | cons a L ih =>
    rw [List.length_cons, Finset.sum_range_succ', List.sum_cons]
    simp only [List.getD_cons_succ, List.getD_cons_zero]
    rw [ih, add_comm]

/-- The solver is Ipopt, with a native library that obeys the `new_x` protocol and, whenever everything it is told is what the callbacks compute, ends with
code 0 or 1 only at a point with multipliers that satisfy the first-order conditions up to the tolerances. -/
def IpoptOptimal64 (W : World F64) (H : HashOrder) (n : ℕ) (lib : IpoptLib F64) (δ ε ρ κ Λ Γ : ℝ) : Prop :=
  ∀ sp m q val, W.m.stdProblem H n = .ok (sp, m) → sp.prob.IsNlp q → EvalsTo q val → lib.Obeys q.ipoptArgs q ∧
    lib.Right (q.oracle val).Truthful q.ipoptArgs (q.ipoptArgs.ClaimFirstOrder64 (q.oracle val) δ ε ρ κ Λ Γ)

/-- **C89.** A model of linear formulas is written and solved with Ipopt in double precision, by a native library that keeps its promise (`IpoptOptimal64`)
about the doubles that it is told. If `solve` succeeds and reports `Solved`, the objective at the final values, taken in exact arithmetic as it was written,
is at most the given amount worse than at any assignment `τ` that satisfies the constraints exactly as they were written and stays within the box that
the library imposes. `N` is the number of columns, `R` bounds the distance from `τ`, `E` the rounding errors of representing the constraints, and `E'`
those of computing their rows; `S c` contains the cell numbers of the variables of the constraint `c`. -/
theorem C89_optimal (hr : ReachableW H W n) {ps : Params F64} {lib : IpoptLib F64} {mod' : Model F64}
    (h : W.m.solve H (ipoptFn ps lib) n = .ok ((.ok (), mod'), m)) (hst : mod'.solverStatus = some .solved)
    {δ ε ρ κ Λ Γ R E E' : ℝ} {N : ℕ} (hδ : 0 ≤ δ) (hε : 0 ≤ ε) (hE0 : 0 ≤ E) (hE0' : 0 ≤ E') {F G : Constraint F64 → LinForm}
    (hc : ∀ c ∈ W.m.constraints, c.lhs.Says64 (F c) ∧ c.rhs.Says64 (G c)) (hRg : ∀ c ∈ W.m.constraints, PairInRange (F c) (G c))
    {o : LinForm} (ho : W.m.ObjectiveSays64 o) (hlib : IpoptOptimal64 W H n lib δ ε ρ κ Λ Γ)
    (hN : ∀ sp m, W.m.stdProblem H n = .ok (sp, m) → sp.var2index.length = N)
    {S : Constraint F64 → Finset ℕ} (hS : ∀ c ∈ W.m.constraints, ∀ x, x.isVar = true → Occurs x c.lhs ∨ Occurs x c.rhs → x.id ∈ S c)
    {t τ : ℕ → ℝ} (ht : W.m.Values64 mod' t) (hτ : ∀ c ∈ W.m.constraints, c.kind.Rel ((F c).value τ) ((G c).value τ))
    (hbox : ∀ x, W.m.HasVar x → |τ x.id| ≤ 10 ^ 8)
    (hsbox : ∀ c ∈ W.m.constraints, c.kind ≠ .equal → |(F c).value τ - (G c).value τ| ≤ 10 ^ 8)
    (hR : ∀ x, W.m.HasVar x → |t x.id - τ x.id| ≤ R)
    (hR' : ∀ c ∈ W.m.constraints, c.kind ≠ .equal → |((F c).value t - (G c).value t) - ((F c).value τ - (G c).value τ)| ≤ R)
    (hE : ∀ c ∈ W.m.constraints, pairErr uD (F c) (G c) t ≤ E ∧ pairErr uD (F c) (G c) τ ≤ E)
    (hM : ∀ c ∈ W.m.constraints, rowSize (F c) (G c) (S c).card t + (10 ^ 8 + ε) ≤ 2 ^ (1022 : ℤ) ∧ (S c).card + 2 ≤ 2 ^ 51)
    (hE' : ∀ c ∈ W.m.constraints, rowErr (F c) (G c) (S c).card δ t ≤ E') :
    W.m.NoWorse o (N * (ρ * (R + (δ + E') + 2 * E) + 2 * κ) + (δ + E' + E) * Λ + E * Γ + objErr uD o t + objErr uD o τ) t τ := by
  refine C81_optimal hr h (ε := ε) (η := 0) (add_nonneg hδ hE0') hE0 hc hRg ho (fun sp st sol c hs hcosts => ?_) ht hτ hbox hsbox hR hR' hE
  have hstat := solvedBy_unique h hs
  rw [hst] at hstat
  injection hstat with hstat
  obtain ⟨sp', k0, hsp', -, hres⟩ := solve_ok h
  rcases hres with ⟨_, -, hbad⟩ | ⟨st', sol', primals, duals, hsol', hx, hmod⟩
  · injection hbad with hbad; cases hbad
  injection hmod with _ hmod
  obtain ⟨k, hsp, hsol⟩ := hs
  have e1 := hsp'.symm.trans hsp
  simp only [Except.ok.injEq, Prod.mk.injEq] at e1
  obtain ⟨rfl, rfl⟩ := e1
  have e2 := hsol'.symm.trans hsol
  simp only [Except.ok.injEq, Prod.mk.injEq] at e2
  obtain ⟨rfl, rfl⟩ := e2
  clear hsol' hsp'
  refine ⟨hN _ _ hsp, ?_⟩
  obtain ⟨hp, k', comp, e, pcs, cols, xes, ves, hf, -⟩ := hr.facts hsp
  obtain ⟨hcosts', hprob⟩ := linear_prob64 hf hc hRg ho
  rw [hcosts] at hcosts'
  cases hcosts'
  have hlp : ∀ q, q ∈ sp'.prob.views → q = stdLinear cols comp xes := by
    intro q hqv
    rw [hf.prob] at hqv hprob
    unfold stdProbOf at hqv hprob
    split at hqv
    · split at hqv <;> simpa [Problem.views] using hqv
    · rename_i hcond
      rw [if_neg hcond] at hprob
      exfalso
      split at hprob <;> rcases hprob with ⟨_, h⟩ | ⟨_, h⟩ <;> cases h
  have hj0 : ∀ q, sp'.prob.IsNlp q → q.buf.j.rowInds = [] := by
    intro q hq
    have hqv : q ∈ sp'.prob.views := by
      rcases hq with h | ⟨p, h, rfl⟩ <;> rw [h] <;> simp [Problem.views]
    rw [hlp q hqv]
    rfl
  obtain ⟨q, val, code, x, lamnu, pi, mu, hq, hview, hsound, hv, hclaim, hcd, -, hsolEq, -⟩ := ipopt_claim hr hsp hsol
    (T := fun q val => (q.oracle val).Truthful) (claim := fun q val => q.ipoptArgs.ClaimFirstOrder64 (q.oracle val) δ ε ρ κ Λ Γ)
    (fun q val hq hv c a h1 => h1 fun _ => .inr (hj0 q hq)) (fun q val hq hv => hlib _ _ q val hsp hq hv)
  have hm := hclaim (hcd.1 hstat.symm)
  have hqe := hlp q hview
  obtain ⟨δ', xs, hxl, hxs, hwith, hrowc, -⟩ := ipopt_meets64 hv (nlp_continuous hr hsp hq) hm.meets
  obtain ⟨hlen, hpt⟩ := (hf.pointFacts64 hview).1 hwith
  subst hmod
  have hneg : (negOne ==. (zero : F64)) = false := by
    rfl
  have hvar : ∀ x, W.m.HasVar x → x ∈ cols := fun x hx => (hf.mem x).2 (hf.mf.col_of_hasVar hneg hx)
  have l2 : lamnu.length = q.na + q.nf := by have := hm.lamnuLen; simp only [Minlp.ipoptArgs] at this; exact_mod_cast this
  have l3 : pi.length = q.nx := by simpa [Minlp.ipoptArgs] using hm.piLen
  have l4 : mu.length = q.nx := by simpa [Minlp.ipoptArgs] using hm.muLen
  have hsolE := hsolEq hxl l2 l3 l4
  have hsx : sol'.x = x := by rw [hsolE]
  have hnf : q.nf = 0 := by rw [hqe]; rfl
  have hnx : q.nx = cols.length := by rw [hqe]; simp [stdLinear, Minlp.initial, Minlp.nx, stdA, Coo.cols]
  have htv : ∀ x, W.m.HasVar x → t x.id = colVal64 cols xs x := by
    intro y hyv
    obtain ⟨a, h1, h2⟩ := ht y hyv
    change mapEnv primals y.id = _ at h1
    rw [hx.env hf, pointEnv_col hf.cok (hvar y hyv), hsx] at h1
    obtain ⟨a', h3, h4⟩ := R64.forall_get hxs (colVal64_get hf.cok hlen (hvar y hyv))
    rw [h3] at h1
    cases h1
    exact h2.unique h4
  have hboxc : ∀ x ∈ cols, |colVal64 cols xs x| ≤ 10 ^ 8 + ε := by
    intro x hxm
    obtain ⟨h1, h2⟩ := hpt.box x hxm
    exact abs_le.2 ⟨by linarith, h2⟩
  have hwith' : q.LinearWithin64 (δ + E') ε 0 xs := by
    refine (hf.pointFacts64 hview).2 ⟨hlen, ⟨fun p hpm hlin b hb hnum => ?_, hpt.bounds, hpt.box, hpt.integral⟩⟩
    have hpc : p.c ∈ W.m.constraints := by rw [← hf.mf.cs]; exact List.mem_map_of_mem hpm
    have hrow := hf.rowTrue64 hpm hlin (hc _ hpc).1 (hc _ hpc).2 (hRg _ hpc) hxs (fun x hxv => (htv x hxv).symm) (hS _ hpc) hδ (by positivity)
        (fun s hs => hboxc s (hf.newCol.2 ⟨p, hpm, hs⟩).1) (hM _ hpc).1 (hM _ hpc).2 (hf.rowVals64 hview hrowc p hpm hlin) hb hnum
    exact hrow.trans (add_le_add le_rfl (hE' _ hpc))
  have hgrad : ((q.oracle val).grad x) = stdC cols comp ∧ ((q.oracle val).jac x) = q.a.triplets.map fun t => ((t.1 : Int), (t.2.1 : Int), t.2.2) := by
    have hi : LinInv (stdC cols comp) (stdA cols comp) comp.constr.b (stdL cols comp) (stdU cols comp) (stdP cols)
        (some (stdX0 cols xes)) (stdLinear cols comp xes) := LinInv.initial (by simp [stdC, stdA, Coo.cols])
    have hev := hi.evaluate (x := x) (by rw [hxl, hnx]; simp [stdC])
    have hbuf := hv.eval [] q rfl x hxl
    rw [hqe] at hbuf
    rw [hev] at hbuf
    injection hbuf with hbuf
    have hb1 : (val x).gphi = stdC cols comp := (congrArg (fun p : Minlp F64 => p.buf.gphi) hbuf).symm
    have hb3 : (val x).j.triplets = [] := (congrArg (fun p : Minlp F64 => p.buf.j.triplets) hbuf).symm
    refine ⟨hb1, ?_⟩
    simp only [Minlp.oracle, jacobianEntries, hb3, List.map_nil, List.append_nil]
  have hget : ∀ (L : List F64) (j : ℕ), (L.map F64.toReal).getD j 0 = ((L[j]?).getD zero).toReal := by
    intro L j
    rw [List.getD_eq_getElem?_getD, List.getElem?_map]
    cases L[j]? with
    | none => exact F64.is_zero.toReal.symm
    | some v => rfl
  have hget' : ∀ (L : List F64) (j : ℕ), (L.map fun v => -v.toReal).getD j 0 = -((L[j]?).getD zero).toReal := by
    intro L j
    rw [List.getD_eq_getElem?_getD, List.getElem?_map]
    cases L[j]? with
    | none =>
      have : (zero : F64).toReal = 0 := F64.is_zero.toReal
      simp [this]
    | some v => rfl
  have hxget : ∀ (j : ℕ) v, x[j]? = some v → v.toReal = xs.getD j 0 := by
    intro j v hj
    have hj' : j < xs.length := by rw [← hxs.length_eq]; exact (List.getElem?_eq_some_iff.1 hj).1
    obtain ⟨a, h1, h2⟩ := R64.forall_get hxs (List.getElem?_eq_getElem hj')
    rw [hj] at h1
    cases h1
    rw [h2.toReal, List.getD_eq_getElem?_getD, List.getElem?_eq_getElem hj', Option.getD_some]
  have hnon : ∀ (L : List F64), (∀ v ∈ L, 0 ≤ v.toReal) → ∀ j : ℕ, 0 ≤ ((L[j]?).getD zero).toReal := by
    intro L hL j
    cases hj : L[j]? with
    | none => exact F64.is_zero.toReal.ge
    | some v => exact hL v (List.mem_of_getElem? hj)
  have hLl : List.length q.l = q.nx ∧ List.length q.u = q.nx := by
    rw [hnx, hqe]; simp [stdLinear, Minlp.initial, stdL, stdU]
  refine ⟨q, hview, xs, lamnu.map fun v => -v.toReal, mu.map F64.toReal, pi.map F64.toReal, by rw [hsx]; exact hxs,
    ⟨hwith', by simp [l2, hnf], fun j _ => ?_, fun j b y hj hy => ?_, fun j b y hj hy => ?_, fun j cj hj => ?_⟩, ?_, ?_⟩
  · rw [hget, hget]
    exact ⟨hnon mu (fun v hv => hm.nonneg v (by simp [hv])) j, hnon pi (fun v hv => hm.nonneg v (by simp [hv])) j⟩
  · have hjl : j < q.nx := by rw [← hLl.2]; exact (List.getElem?_eq_some_iff.1 hj).1
    have h1 := List.getElem?_eq_getElem (l := x) (i := j) (by omega)
    have h2 := List.getElem?_eq_getElem (l := mu) (i := j) (by omega)
    rw [hget, h2, ← hxget j _ h1]
    exact hm.upper j _ _ b y h1 h2 hj hy
  · have hjl : j < q.nx := by rw [← hLl.1]; exact (List.getElem?_eq_some_iff.1 hj).1
    have h1 := List.getElem?_eq_getElem (l := x) (i := j) (by omega)
    have h2 := List.getElem?_eq_getElem (l := pi) (i := j) (by omega)
    rw [hget, h2, ← hxget j _ h1]
    exact hm.lower j _ _ b y h1 h2 hj hy
  · have hjl : j < q.nx := by
      have := (List.getElem?_eq_some_iff.1 hj).1
      rw [hnx]; simpa [stdC] using this
    have h2 := List.getElem?_eq_getElem (l := mu) (i := j) (by omega)
    have h3 := List.getElem?_eq_getElem (l := pi) (i := j) (by omega)
    have hst := hm.stationary j cj _ _ (by rw [hgrad.1]; exact hj) h3 h2
    rw [hgrad.2] at hst
    rw [hget, hget, h2, h3]
    refine le_of_eq_of_le ?_ hst
    congr 1
    have hsum : ((q.a.triplets.filter fun e => e.2.1 == j).map fun e => e.2.2.toReal * (lamnu.map fun v => -v.toReal).getD e.1 0).sum =
        -((((q.a.triplets.map fun t => ((t.1 : Int), (t.2.1 : Int), t.2.2)).filter fun e => e.2.1 == (j : Int)).map
          fun e => e.2.2.toReal * ((lamnu[e.1.toNat]?).getD zero).toReal).sum) := by
      rw [List.filter_map, List.map_map]
      have hfil : ((fun e : Int × Int × F64 => e.2.1 == (j : Int)) ∘ fun t : ℕ × ℕ × F64 => ((t.1 : Int), (t.2.1 : Int), t.2.2)) = fun e => e.2.1 == j := by
        funext e
        simp [Function.comp_def, Bool.beq_eq_decide_eq]
      rw [hfil]
      induction q.a.triplets.filter fun e => e.2.1 == j with
      | nil => simp
      | cons e L ih =>
        simp only [hget', Function.comp_def, Int.toNat_natCast] at ih ⊢
        simp only [List.map_cons, List.sum_cons, ih]
        ring
    rw [hsum]
    simp only [Option.getD_some]
    ring
  · refine le_of_eq_of_le ?_ hm.size
    have h1 : q.na = (lamnu.map fun v => |v.toReal|).length := by simp [l2, hnf]
    rw [h1, ← range_getD_sum]
    refine Finset.sum_congr rfl fun i hi => ?_
    rw [hget', abs_neg, List.getD_eq_getElem?_getD, List.getElem?_map]
    cases lamnu[i]? with
    | none =>
      have : (zero : F64).toReal = 0 := F64.is_zero.toReal
      simp [this]
    | some v => rfl
  · refine le_of_eq_of_le ?_ hm.sizeBounds
    have hNn : N = q.nx := by rw [hnx, ← hN _ _ hsp, hf.v2i]; simp
    have h1 : q.nx = (mu.map F64.toReal).length := by simp [l4]
    have h2 : q.nx = (pi.map F64.toReal).length := by simp [l3]
    rw [Finset.sum_add_distrib, hNn, List.map_append, List.sum_append, ← range_getD_sum (mu.map F64.toReal), ← range_getD_sum (pi.map F64.toReal), ← h1, ← h2]
    ring

end

/-! ## Concrete cases -/

section
attribute [local instance] exLibm

/-- What a library tells with the multipliers: they are numbers, of the right count, and satisfy the first-order conditions, up to the tolerances. -/
def kktCheck (t r k A B : ℚ) (args : IpoptArgs F64) (x L P U grad g : List F64) (jac : List (Int × Int × F64)) : Bool :=
  (List.range x.length).all (fun i => orderedD t args.xL[i]? x[i]? args.xU[i]?) &&
  (List.range g.length).all (fun i => orderedD t args.gL[i]? g[i]? args.gU[i]?) &&
  (decide ((L.length : Int) = args.m) && decide ((P.length : Int) = args.n) && decide ((U.length : Int) = args.n)) &&
  (L ++ P ++ U).all (fun v => v.value.isSome) &&
  decide ((L.map fun v => |F64.val v|).sum ≤ A) && decide (((P ++ U).map F64.val).sum ≤ B) && (P ++ U).all (fun v => decide (0 ≤ F64.val v)) &&
  (List.range x.length).all (fun i => match x[i]?, P[i]?, args.xL[i]? with
    | some v, some z, some b => decide (z.val * (v.val - b.val) ≤ k)
    | _, _, _ => true) &&
  (List.range x.length).all (fun i => match x[i]?, U[i]?, args.xU[i]? with
    | some v, some z, some b => decide (z.val * (b.val - v.val) ≤ k)
    | _, _, _ => true) &&
  (List.range grad.length).all (fun i => match grad[i]?, P[i]?, U[i]? with
    | some gr, some zL, some zU => decide (|gr.val + ((jac.filter fun e => e.2.1 == (i : Int)).map fun e => e.2.2.val *
        ((L[e.1.toNat]?).getD zero).val).sum - zL.val + zU.val| ≤ r)
    | _, _, _ => true)

theorem toReal_val (a : F64) : a.toReal = (a.val : ℝ) := rfl

theorem cast_sum_map {α : Type} (l : List α) (f : α → ℚ) : ((l.map f).sum : ℝ) = (l.map fun a => (f a : ℝ)).sum := by
  induction l with
  | nil => simp
  | cons a l ih => simp [ih]

theorem kktCheck_sound {t r k A B : ℚ} {args : IpoptArgs F64} {x L P U : List F64} {o : Oracle F64} (hx : (x.length : Int) = args.n)
    (h : kktCheck t r k A B args x L P U (o.grad x) (o.g x) (o.jac x) = true) : args.FirstOrder64 o t t r k A B x L P U := by
  simp only [kktCheck, Bool.and_eq_true, List.all_eq_true, List.mem_range, decide_eq_true_eq] at h
  obtain ⟨⟨⟨⟨⟨⟨⟨⟨⟨h1, h2⟩, ⟨h3, h4⟩, h5⟩, h6⟩, h7⟩, h8⟩, h9⟩, h10⟩, h11⟩, h12⟩ := h
  refine ⟨⟨hx, fun i hi => orderedD_sound (h1 i hi), fun i hi => orderedD_sound (h2 i hi)⟩, h3, h4, h5, fun v hv => ?_, ?_, ?_, fun v hv => ?_,
    fun i v z b y hv hz hb hy => ?_, fun i v z b y hv hz hb hy => ?_, fun i gr zL zU hg hL hU => ?_⟩
  · obtain ⟨q, hq⟩ := Option.isSome_iff_exists.1 (h6 v hv)
    exact ⟨q, F64.is_lit hq rfl⟩
  · have := (Rat.cast_le (K := ℝ)).2 h7
    rw [cast_sum_map] at this
    simpa [toReal_val] using this
  · have := (Rat.cast_le (K := ℝ)).2 h8
    rw [cast_sum_map] at this
    exact this
  · rw [toReal_val]
    exact_mod_cast h9 v hv
  · have := h10 i (List.getElem?_eq_some_iff.1 hv).1
    rw [hv, hz, hb] at this
    rw [← hy.toReal]
    simp only [toReal_val]
    exact_mod_cast of_decide_eq_true this
  · have := h11 i (List.getElem?_eq_some_iff.1 hv).1
    rw [hv, hz, hb] at this
    rw [← hy.toReal]
    simp only [toReal_val]
    exact_mod_cast of_decide_eq_true this
  · have := h12 i (List.getElem?_eq_some_iff.1 hg).1
    rw [hg, hL, hU] at this
    have := (Rat.cast_le (K := ℝ)).2 (of_decide_eq_true this)
    push_cast at this
    simpa only [toReal_val, Rat.cast_mul, List.map_map, Function.comp_def] using this

/-- A native library that only checks the initial point, with the given multipliers, up to tolerances. -/
def kktLibD (t r k A B : ℚ) (L P U : List F64) : IpoptLib F64 where
  create _ := true
  addInt _ _ := true
  addStr _ _ := true
  solve args _ _ x _ _ _ :=
    .call (.jacG args.n none 0 args.m args.nnzj true true false true) fun a1 =>
    .call (.gradF args.n (some x) 1 true true) fun a2 =>
    .call (.g args.n (some x) 0 args.m true true) fun a3 =>
    .call (.jacG args.n (some x) 0 args.m args.nnzj false false true true) fun a4 =>
    .done (if (a1.ok && a2.ok && a3.ok && a4.ok) && kktCheck t r k A B args x L P U a2.values a3.values (a1.irow.zip (a1.jcol.zip a4.values))
      then 1 else -1) x L P U

/-- It keeps its promise for every model. -/
theorem kktLibD_keeps (W : World F64) (H : HashOrder) (n : ℕ) (t r k A B : ℚ) (L P U : List F64) :
    IpoptOptimal64 W H n (kktLibD t r k A B L P U) t t r k A B := by
  refine fun sp m q val _ _ _ => ⟨fun level sb x lamnu pi mu hx => ?_, fun level sb x lamnu pi mu hx => ?_⟩
  · have hx : x.length = q.nx := by
      simp only [Minlp.ipoptArgs, Nat.cast_inj] at hx
      exact hx
    exact .pattern ⟨rfl, rfl, rfl, rfl, rfl, rfl, rfl⟩ fun _ => .values (x := x) ⟨rfl, rfl, hx, rfl, rfl⟩ (.inl rfl) fun _ =>
      .values (x := x) ⟨rfl, rfl, hx, rfl, rfl, rfl⟩ (.inr rfl) fun _ => .values (x := x) ⟨rfl, rfl, hx, rfl, rfl, rfl, rfl⟩ (.inr rfl) fun _ => .done ..
  · refine .call fun a1 ha1 => .call fun a2 ha2 => .call fun a3 ha3 => .call fun a4 ha4 => .done ?_
    intro hcode
    have hcode : ((a1.ok && a2.ok && a3.ok && a4.ok) && kktCheck t r k A B q.ipoptArgs x L P U a2.values a3.values (a1.irow.zip (a1.jcol.zip a4.values))) = true := by
      by_contra hc
      rw [if_neg hc] at hcode
      rcases hcode with h | h <;> cases h
    simp only [Bool.and_eq_true] at hcode
    obtain ⟨⟨⟨⟨o1, o2⟩, o3⟩, o4⟩, hk⟩ := hcode
    obtain ⟨e1, e1'⟩ := ha1 o1 x hx
    have e2 := ha2 o2 x rfl
    have e3 := ha3 o3 x rfl
    have e4 := ha4 o4 x rfl
    have e5 : ∀ l : List (Int × Int × F64), (l.map fun e => e.1).zip ((l.map fun e => e.2.1).zip (l.map fun e => e.2.2)) = l := by
      intro l
      induction l with
      | nil => rfl
      | cons a l ih => simpa using ih
    rw [e2, e3, e1, e1', e4, e5] at hk
    exact kktCheck_sound hx hk

/-- The program: minimise `y` subject to `0.1 * (x + 3) <= y` and `x >= 0`, from a point with `y` above the optimum by about `2^-12`. -/
def exJy : ℚ := exG3 + 1 / 4096
def exJ : List (Cmd F64) := exG ++ [.setInitPrimals [(0, dbl 0), (1, dbl exJy)]]

def exJlib : IpoptLib F64 := kktLibD (2 ^ (-10 : ℤ)) 0 0 1 2 [dbl 1] [dbl 0, dbl exG1, dbl 0] [dbl 1, dbl 0, dbl 0]

theorem exJ_reach : ReachableW HashOrder.listOrder (worldD exJ) (countD exJ) :=
  (runsD_reachable (by decide +kernel) (by decide +kernel)).reachable

theorem exJ_constraints : (worldD exJ).m.constraints = (worldD exG).m.constraints := by decide +kernel
theorem exJ_objective : (worldD exJ).m.objective = (worldD exG).m.objective := by decide +kernel

theorem exJ_solve : (match (worldD exJ).m.solve HashOrder.listOrder (ipoptFn ipoptParams exJlib) (countD exJ) with
    | .ok ((.ok (), mod'), _) => decide (mod'.solverStatus = some .solved ∧ mapEnv mod'.finalPrimals 0 = some (dbl 0) ∧ mapEnv mod'.finalPrimals 1 = some (dbl exJy))
    | _ => false) = true := by decide +kernel

theorem exJ_columns {sp : StdProb F64} {m : ℕ} (h : (worldD exJ).m.stdProblem HashOrder.listOrder (countD exJ) = .ok (sp, m)) : sp.var2index.length = 3 := by
  have hd : (match (worldD exJ).m.stdProblem HashOrder.listOrder (countD exJ) with
    | .ok r => decide (r.1.var2index.length = 3)
    | .error _ => false) = true := by decide +kernel
  rw [h] at hd
  exact of_decide_eq_true hd

theorem exJ_mag {t : ℕ → ℝ} (h0 : |t 0| ≤ 10) (h1 : |t 1| ≤ 10) : ∀ c ∈ (worldD exG).m.constraints, (exGF c).mag t + (exGG c).mag t ≤ 340 := by
  intro c hc
  rw [exG_constraints] at hc
  simp only [List.mem_cons, List.not_mem_nil, or_false] at hc
  rcases hc with rfl | rfl
  · simp only [exGF, exGG, exGo, if_true, LinForm.mag, Finset.sum_singleton, Pi.single_eq_same]
    have h2 := exG_scale 0
    rw [Pi.single_eq_same] at h2
    have h3 := exG_scale3
    have h4 := mul_le_mul h2 h0 (abs_nonneg _) (by norm_num)
    linarith
  · have hm : (exGF ⟨11, exGx, .greaterEqual, .const 10 (dbl 0), ""⟩).mag t + (exGG ⟨11, exGx, .greaterEqual, .const 10 (dbl 0), ""⟩).mag t = |t 0| := by
      simp [exGF, exGG, LinForm.mag]
    rw [hm]
    linarith

theorem exJ_row {t : ℕ → ℝ} (h0 : |t 0| ≤ 10) (h1 : |t 1| ≤ 10) : ∀ c ∈ (worldD exG).m.constraints, rowSize (exGF c) (exGG c) 2 t ≤ 700 := by
  intro c hc
  have hm := exJ_mag h0 h1 c hc
  have hτ : (2 : ℝ) ^ (-1022 : ℤ) ≤ 1 := zpow_le_one_of_nonpos₀ (by norm_num) (by norm_num)
  unfold rowSize
  generalize (2 : ℝ) ^ (-1022 : ℤ) = s at hτ
  push_cast
  linarith

/-- Non-vacuity of C89: `solve` with Ipopt and the library `kktLibD` succeeds and reports `Solved`, the hypotheses of the theorem are met, and so the
reported `y` is at most `2^-9` worse than at any point between 0 and 10 that satisfies the constraints. It is not optimal. -/
example : ∃ mod' n' t, (worldD exJ).m.solve HashOrder.listOrder (ipoptFn ipoptParams exJlib) (countD exJ) = .ok ((.ok (), mod'), n') ∧
    mod'.solverStatus = some .solved ∧ (worldD exJ).m.Values64 mod' t ∧ 3 * tenth < t 1 ∧
    ∀ τ : ℕ → ℝ, tenth * (τ 0 + 3) ≤ τ 1 → 0 ≤ τ 0 → τ 0 ≤ 10 → τ 1 ≤ 10 → t 1 ≤ τ 1 + 2 ^ (-9 : ℤ) := by
  obtain ⟨mod', n', hs, hst, ht0, ht1⟩ : ∃ mod' n', (worldD exJ).m.solve HashOrder.listOrder (ipoptFn ipoptParams exJlib) (countD exJ) = .ok ((.ok (), mod'), n') ∧
      mod'.solverStatus = some .solved ∧ mapEnv mod'.finalPrimals 0 = some (dbl 0) ∧ mapEnv mod'.finalPrimals 1 = some (dbl exJy) := by
    have hok := exJ_solve
    revert hok
    generalize (worldD exJ).m.solve HashOrder.listOrder (ipoptFn ipoptParams exJlib) (countD exJ) = r
    match r with
    | .ok ((.ok (), mod'), n') => exact fun h => ⟨mod', n', rfl, by simpa using h⟩
    | .ok ((.error _, _), _) => simp
    | .error _ => simp
  have hkeep : IpoptOptimal64 (worldD exJ) HashOrder.listOrder (countD exJ) exJlib (2 ^ (-10 : ℤ)) (2 ^ (-10 : ℤ)) 0 0 1 2 := by
    have := kktLibD_keeps (worldD exJ) HashOrder.listOrder (countD exJ) (2 ^ (-10 : ℤ)) 0 0 1 2 [dbl 1] [dbl 0, dbl exG1, dbl 0] [dbl 1, dbl 0, dbl 0]
    push_cast at this
    exact this
  have hvars : ∀ x, (worldD exJ).m.HasVar x → x = exGx ∨ x = exGy := fun x hx => exG_vars (by
    unfold Model.HasVar at hx ⊢
    rwa [exJ_constraints, exJ_objective] at hx)
  let t : ℕ → ℝ := fun i => if i = 0 then 0 else exJy
  have t0 : t 0 = 0 := rfl
  have t1 : t 1 = exJy := rfl
  have ht : (worldD exJ).m.Values64 mod' t := by
    intro x hx
    rcases hvars x hx with rfl | rfl
    · exact ⟨_, ht0, exG_zero⟩
    · exact ⟨_, ht1, F64.is_lit (q := exJy) (by decide +kernel) rfl⟩
  have b0 : |t 0| ≤ 10 := by rw [t0]; norm_num
  have b1 : |t 1| ≤ 10 := by rw [t1, abs_le]; constructor <;> norm_num [exJy, exG3]
  have vF : ∀ s, (exGF ⟨9, exTenth2, .lessEqual, exGy, ""⟩).value s = tenth * (s 0 + 3) := by intro s; simp [exGF, LinForm.value]; ring
  have vO : ∀ s, exGo.value s = s 1 := by intro s; simp [exGo, LinForm.value]
  have vX : ∀ s, (exGF ⟨11, exGx, .greaterEqual, .const 10 (dbl 0), ""⟩).value s = s 0 := by intro s; simp [exGF, LinForm.value]
  have vZ : ∀ s, (exGG ⟨11, exGx, .greaterEqual, .const 10 (dbl 0), ""⟩).value s = 0 := by intro s; simp [exGG, LinForm.value]
  have vY : ∀ s, (exGG ⟨9, exTenth2, .lessEqual, exGy, ""⟩).value s = s 1 := vO
  refine ⟨mod', n', t, hs, hst, ht, ?_, ?_⟩
  · rw [t1]
    norm_num [exJy, exG3, tenth]
  intro τ h1 h2 h3 h4
  have hτ1 : 0 ≤ τ 1 := le_trans (mul_nonneg tenth_pos.le (by linarith)) h1
  have c0 : |τ 0| ≤ 10 := by rw [abs_of_nonneg h2]; exact h3
  have c1 : |τ 1| ≤ 10 := by rw [abs_of_nonneg hτ1]; exact h4
  have h5 : 0 ≤ tenth * (τ 0 + 3) := mul_nonneg tenth_pos.le (by linarith)
  have h6 : tenth * (t 0 + 3) ≤ 3 ∧ 0 ≤ tenth * (t 0 + 3) := by
    rw [t0]
    have := tenth_le
    have := tenth_pos
    constructor <;> linarith
  obtain ⟨d1, d2⟩ := abs_le.1 b1
  have hbig : (700 : ℝ) + (10 ^ 8 + 2 ^ (-10 : ℤ)) ≤ 2 ^ (1022 : ℤ) :=
    le_trans (by norm_num) (zpow_le_zpow_right₀ (by norm_num : (1 : ℝ) ≤ 2) (by norm_num : (30 : ℤ) ≤ 1022))
  have key : (worldD exJ).m.NoWorse exGo _ t τ :=
    C89_optimal exJ_reach hs hst (R := 30) (E := 1 / 10 ^ 12) (E' := 1 / 10 ^ 11) (N := 3) (F := exGF) (G := exGG) (by positivity) (by positivity) (by norm_num) (by norm_num)
      (by rw [exJ_constraints]; exact exG_says) (by rw [exJ_constraints]; exact exG_range)
      (by have := exG_obj; unfold Model.ObjectiveSays64 at this ⊢; rwa [exJ_objective]) hkeep (fun sp m h => exJ_columns h) (S := fun _ => {0, 1})
      (fun c hc x hx ho => by
        rcases hvars x ⟨hx, .inr ⟨c, hc, ho⟩⟩ with rfl | rfl <;> simp [exGx, exGy, Node.id])
      ht (by
        intro c hc
        rw [exJ_constraints, exG_constraints] at hc
        simp only [List.mem_cons, List.not_mem_nil, or_false] at hc
        rcases hc with rfl | rfl
        · rw [vF, vY]; exact h1
        · rw [vX, vZ]; exact h2)
      (by
        intro x hx
        rcases hvars x hx with rfl | rfl
        · exact c0.trans (by norm_num)
        · exact c1.trans (by norm_num))
      (by
        intro c hc _
        rw [exJ_constraints, exG_constraints] at hc
        simp only [List.mem_cons, List.not_mem_nil, or_false] at hc
        rcases hc with rfl | rfl
        · rw [vF, vY, abs_le]; constructor <;> linarith
        · rw [vX, vZ, sub_zero]; exact c0.trans (by norm_num))
      (by
        intro x hx
        rcases hvars x hx with rfl | rfl
        · exact (abs_sub (t 0) (τ 0)).trans (by linarith)
        · exact (abs_sub (t 1) (τ 1)).trans (by linarith))
      (by
        intro c hc _
        rw [exJ_constraints, exG_constraints] at hc
        simp only [List.mem_cons, List.not_mem_nil, or_false] at hc
        rcases hc with rfl | rfl
        · rw [vF, vY, vF, vY, abs_le]; constructor <;> linarith [h6.1, h6.2]
        · rw [vX, vZ, vX, vZ, sub_zero, sub_zero]; exact (abs_sub _ _).trans (by linarith))
      (by rw [exJ_constraints]; exact fun c hc => ⟨exG_err b0 b1 c hc, exG_err c0 c1 c hc⟩)
      (by
        rw [exJ_constraints]
        exact fun c hc => ⟨le_trans (add_le_add (exJ_row b0 b1 c hc) le_rfl) hbig, by norm_num⟩)
      (by
        rw [exJ_constraints]
        intro c hc
        have hle : rowErr (exGF c) (exGG c) 2 (2 ^ (-10 : ℤ)) t ≤ ((1 + 2 ^ (-53 : ℤ)) ^ (2 + 2) - 1) * (4 * 700 + 2 * 2 ^ (-10 : ℤ)) :=
          mul_le_mul_of_nonneg_left (by have := exJ_row b0 b1 c hc; linarith) (eps_nonneg uD_nonneg (2 + 2))
        exact hle.trans (by norm_num))
  have ho : ∀ s : ℕ → ℝ, |s 1| ≤ 10 → objErr uD exGo s ≤ 1 / 10 ^ 12 := by
    intro s hs
    have hm : exGo.mag s = |s 1| := by simp [exGo, LinForm.mag]
    have hp : (1 + uD) ^ (1 + 1) - 1 ≤ 1 / 10 ^ 15 := by
      have := pow_le_pow_right₀ (show (1 : ℝ) ≤ 1 + uD by linarith [uD_nonneg]) (show 1 + 1 ≤ 7 by norm_num)
      exact (sub_le_sub_right this 1).trans exG_pow
    show ((1 + uD) ^ (1 + 1) - 1) * _ ≤ _
    rw [hm]
    calc _ ≤ (1 / 10 ^ 15 : ℝ) * 10 := mul_le_mul hp hs (abs_nonneg _) (by norm_num)
      _ ≤ _ := by norm_num
  unfold Model.NoWorse at key
  rw [exJ_objective, exG_objective] at key
  simp only [vO] at key
  have := ho t b1
  have := ho τ c1
  norm_num at key ⊢
  linarith

end

end Verif
