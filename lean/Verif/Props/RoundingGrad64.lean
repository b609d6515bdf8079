import Verif.Spec.RoundingGrad64
import Verif.Proofs.RoundingGradStd64
import Verif.Props.RoundingDeriv64

/-!
# C86: what a nonlinear solver is told about derivatives, in double precision
-/

namespace Verif

set_option linter.unusedSectionVars false

section
variable [Libm] {H : HashOrder} {W : World F64} {n m₀ : ℕ} {sp : StdProb F64} {t : ℕ → ℝ} {κ : ℕ}

theorem hpow_eq (k : ℕ) (s : ℝ) : ((1 + 2 ^ (-53 : ℤ)) ^ (2 * (k + 1)) - 1) * s = R64.dErr k s := rfl

/-- What evaluating gives as gradient, from facts about the expression that is minimised. -/
theorem SpFacts.gradient64 {hp : Heap F64} {comp : ModelComp F64} {e : Node F64} {mod : Model F64}
    {ps : List (Piece F64)} {cols : List (Node F64)} {xes : List (Node F64 × F64)} {ves : List (Node F64 × Nat)}
    (hf : SpFacts H .noSelf hp n m₀ mod comp e ps cols xes ves sp)
    (hc : (∃ q, sp.prob = .nlp q) ∨ ∃ q, sp.prob = .minlp q) {q q' : Minlp F64} (hq : q ∈ sp.prob.views)
    {ops : List (ProbOp F64)} (hops : runProb q ops = .ok q') {xs : List F64} (hx : xs.length = sp.var2index.length)
    (hfl : FlatSums e) (ht : e.Tame (pointOf sp.var2index xs) t κ) :
    ∃ r, q'.evaluate xs = .ok r ∧ r.buf.gphi.length = sp.var2index.length ∧ ∀ x i, (x, i) ∈ sp.var2index →
      2 * (e.gradSize t κ x.id).size ≤ maxSize → (e.gradSize t κ x.id).ops < 2 ^ 52 →
      ∃ y z, r.buf.gphi[i]? = some y ∧ y.Is z ∧ |z - R64.gradV t x.id e| ≤ R64.dErr (e.gradSize t κ x.id).ops (e.gradSize t κ x.id).size := by
  have hlen : xs.length = cols.length := by rw [hx, hf.v2i]; simp
  rw [hf.v2i, pointOf_eq] at ht
  rcases hf.life with ⟨-, hl, -⟩ | ⟨-, -, hi⟩
  · rcases hl with ⟨a, ha⟩ | ⟨a, ha⟩ <;> rcases hc with ⟨b, hb⟩ | ⟨b, hb⟩ <;> rw [ha] at hb <;> cases hb
  have hi' := (hi q hq).run hf.cok hf.cmpOk hf.vesP hops
  rw [hi'.evaluate hf.cok hf.cmpOk hf.vesP (by omega)]
  refine ⟨_, rfl, by simp [evalBuf, hf.v2i], ?_⟩
  intro x i hxi h1 h2
  rw [hf.mem_v2i] at hxi
  obtain ⟨z, hz, hb⟩ := hf.grad64 hfl ht (List.mem_of_getElem? hxi) h1 h2
  refine ⟨_, z, ?_, hz, hb⟩
  simp only [evalBuf]
  rw [List.getElem?_map, hxi]
  rfl

/-- **C86** Write a nonlinear model with the operators in double precision, with an objective to be minimised, and let a solver evaluate the problem at any
point, after any history of calls. The entry of the gradient for each column is finite, and within the rounding error of the operations of the chain rule from
the derivative, as it is known from calculus, of the exact function that the objective stores. -/
theorem C86_minimize (hr : ReachableApiW H W n) (hs : W.m.NoSelfDiv) (h : W.m.stdProblem H n = .ok (sp, m₀))
    (hc : (∃ q, sp.prob = .nlp q) ∨ ∃ q, sp.prob = .minlp q) {q q' : Minlp F64} (hq : q ∈ sp.prob.views)
    {ops : List (ProbOp F64)} (hops : runProb q ops = .ok q') {xs : List F64} (hx : xs.length = sp.var2index.length)
    {f : Node F64} (ho : W.m.objective = .minimize f) (ht : f.Tame (pointOf sp.var2index xs) t κ) :
    ∃ r, q'.evaluate xs = .ok r ∧ r.buf.gphi.length = sp.var2index.length ∧ ∀ x i, (x, i) ∈ sp.var2index →
      2 * (f.gradSize t κ x.id).size ≤ 2 ^ (1022 : ℤ) → (f.gradSize t κ x.id).ops < 2 ^ 52 →
      ∃ y z g, r.buf.gphi[i]? = some y ∧ y.Is z ∧ HasDerivAt (fun s => f.realAt (Function.update t x.id s)) g (t x.id) ∧
        |z - g| ≤ ((1 + 2 ^ (-53 : ℤ)) ^ (2 * ((f.gradSize t κ x.id).ops + 1)) - 1) * (f.gradSize t κ x.id).size := by
  obtain ⟨hp, k, comp, e, ps, cols, xes, ves, hf⟩ := hr.factsNoSelfG hs h
  obtain rfl := hf.mf.objMin f ho
  obtain ⟨r, h1, h2, h3⟩ := hf.gradient64 hc hq hops hx (hr.flat.min _ ho) ht
  refine ⟨r, h1, h2, fun x i hxi h4 h5 => ?_⟩
  obtain ⟨y, z, h6, h7, h8⟩ := h3 x i hxi h4 h5
  exact ⟨y, z, _, h6, h7, R64.realAt_hasDerivAt x.id _ ht, h8⟩

/-- The same for an objective to be maximised: the entries are those of the negative function. -/
theorem C86_maximize (hr : ReachableApiW H W n) (hs : W.m.NoSelfDiv) (h : W.m.stdProblem H n = .ok (sp, m₀))
    (hc : (∃ q, sp.prob = .nlp q) ∨ ∃ q, sp.prob = .minlp q) {q q' : Minlp F64} (hq : q ∈ sp.prob.views)
    {ops : List (ProbOp F64)} (hops : runProb q ops = .ok q') {xs : List F64} (hx : xs.length = sp.var2index.length)
    {f : Node F64} (ho : W.m.objective = .maximize f) (ht : f.Tame (pointOf sp.var2index xs) t κ) (hR : InRange (f.sizeAt t + 1) (4 * f.opsAt κ + 5)) :
    ∃ r, q'.evaluate xs = .ok r ∧ r.buf.gphi.length = sp.var2index.length ∧ ∀ x i, (x, i) ∈ sp.var2index →
      2 * (f.gradSize t κ x.id).size ≤ 2 ^ (1022 : ℤ) → (f.gradSize t κ x.id).ops + 6 * (f.gradSize t κ x.id).terms < 2 ^ 52 →
      ∃ y z g, r.buf.gphi[i]? = some y ∧ y.Is z ∧ HasDerivAt (fun s => - f.realAt (Function.update t x.id s)) g (t x.id) ∧
        |z - g| ≤ ((1 + 2 ^ (-53 : ℤ)) ^ (2 * ((f.gradSize t κ x.id).ops + 6 * (f.gradSize t κ x.id).terms + 1)) - 1) * (f.gradSize t κ x.id).size := by
  obtain ⟨hp, k, comp, e, ps, cols, xes, ves, hf⟩ := hr.factsNoSelfG hs h
  obtain ⟨j, j', hj⟩ := hf.mf.objMax f ho
  obtain ⟨hfl, hte, hall⟩ := R64.negN_tame (hr.flat.max _ ho) ht hR.2 hR.1 hj
  obtain ⟨r, h1, h2, h3⟩ := hf.gradient64 hc hq hops hx hfl hte
  refine ⟨r, h1, h2, fun x i hxi h4 h5 => ?_⟩
  obtain ⟨e1, e2, e3⟩ := hall x.id
  obtain ⟨y, z, h6, h7, h8⟩ := h3 x i hxi (by rw [e2]; exact h4) (by omega)
  refine ⟨y, z, _, h6, h7, (R64.realAt_hasDerivAt x.id _ ht).neg, ?_⟩
  rw [← e1, hpow_eq]
  rw [e2] at h8
  exact h8.trans (R64.dErr_mono e3 (R64.gok _ _).nonneg)

/-- Without an objective, the gradient is zero. -/
theorem C86_empty (hr : ReachableApiW H W n) (hs : W.m.NoSelfDiv) (h : W.m.stdProblem H n = .ok (sp, m₀))
    (hc : (∃ q, sp.prob = .nlp q) ∨ ∃ q, sp.prob = .minlp q) {q q' : Minlp F64} (hq : q ∈ sp.prob.views)
    {ops : List (ProbOp F64)} (hops : runProb q ops = .ok q') {xs : List F64} (hx : xs.length = sp.var2index.length)
    (ho : W.m.objective = .empty) :
    ∃ r, q'.evaluate xs = .ok r ∧ r.buf.gphi.length = sp.var2index.length ∧ ∀ x i, (x, i) ∈ sp.var2index → ∃ y, r.buf.gphi[i]? = some y ∧ y.Is 0 := by
  obtain ⟨hp, k, comp, e, ps, cols, xes, ves, hf⟩ := hr.factsNoSelfG hs h
  obtain ⟨i0, rfl⟩ := hf.mf.objEmpty ho
  have hT : (Node.const i0 zero : Node F64).Tame (pointOf sp.var2index xs) (fun _ => 0) 0 := by
    have := F64.is_zero.toReal
    refine ⟨⟨?_, by simp [Node.opsAt]⟩, ?_⟩
    · simp only [Node.sizeAt]
      rw [this]
      simp [maxSize]
      exact_mod_cast one_le_pow₀ (by norm_num)
    · rfl
  obtain ⟨r, h1, h2, h3⟩ := hf.gradient64 hc hq hops hx (flat_const _ _) hT
  refine ⟨r, h1, h2, fun x i hxi => ?_⟩
  obtain ⟨y, z, h4, h5, h6⟩ := h3 x i hxi (by simp [Node.gradSize, GradSize.none, maxSize]) (by simp [Node.gradSize, GradSize.none])
  refine ⟨y, h4, ?_⟩
  have hz : z = 0 := by simpa [R64.gradV, Node.gradSize, GradSize.none, R64.dErr] using h6
  rw [← hz]; exact h5

/-- **C86** The Jacobian: row `k`, which comes from the constraint `c`, has for each column at most one entry. If there is none, the derivative of the row, left
side minus right side minus slack, is zero; otherwise the entry is finite and within the rounding error from this derivative. -/
theorem C86_rows (hr : ReachableApiW H W n) (hs : W.m.NoSelfDiv) (h : W.m.stdProblem H n = .ok (sp, m₀))
    (hc : (∃ q, sp.prob = .nlp q) ∨ ∃ q, sp.prob = .minlp q) {q q' : Minlp F64} (hq : q ∈ sp.prob.views)
    {ops : List (ProbOp F64)} (hops : runProb q ops = .ok q') {xs : List F64} (hx : xs.length = sp.var2index.length)
    {k : ℕ} {c : Constraint F64} (hkc : (k, c) ∈ sp.jindex2constr) (ht : c.Tame (pointOf sp.var2index xs) t κ) :
    ∃ r, q'.evaluate xs = .ok r ∧ ∀ x i, (x, i) ∈ sp.var2index →
      2 * (c.gradSize t κ x.id).size ≤ 2 ^ (1022 : ℤ) → (c.gradSize t κ x.id).ops < 2 ^ 52 →
      ∃ g, HasDerivAt (fun s => sp.rowReal n k c (Function.update t x.id s)) g (t x.id) ∧
        ((r.buf.j.triplets.filter (fun e => e.1 == k && e.2.1 == i) = [] ∧ g = 0) ∨
        ∃ y z, r.buf.j.triplets.filter (fun e => e.1 == k && e.2.1 == i) = [(k, i, y)] ∧ F64.Is y z ∧
          |z - g| ≤ ((1 + 2 ^ (-53 : ℤ)) ^ (2 * ((c.gradSize t κ x.id).ops + 1)) - 1) * (c.gradSize t κ x.id).size) := by
  obtain ⟨hp, k', comp, e, ps, cols, xes, ves, hf⟩ := hr.factsNoSelfG hs h
  have hlen : xs.length = cols.length := by rw [hx, hf.v2i]; simp
  have ht' := ht
  rw [hf.v2i, pointOf_eq] at ht
  rcases hf.life with ⟨-, hl, -⟩ | ⟨-, -, hi⟩
  · rcases hl with ⟨a, ha⟩ | ⟨a, ha⟩ <;> rcases hc with ⟨b, hb⟩ | ⟨b, hb⟩ <;> rw [ha] at hb <;> cases hb
  have hi' := (hi q hq).run hf.cok hf.cmpOk hf.vesP hops
  rw [hi'.evaluate hf.cok hf.cmpOk hf.vesP (by omega)]
  simp only [hf.jindex, List.mem_map, List.mem_filter, Prod.mk.injEq] at hkc
  obtain ⟨p, ⟨hp', hnl⟩, rfl, rfl⟩ := hkc
  obtain ⟨n1, m1, -, -, hok⟩ := hf.mf.piece hp'
  obtain ⟨k1, hk1⟩ := hok.exp
  have hpc : p.c ∈ W.m.constraints := by rw [← hf.mf.cs]; exact List.mem_map_of_mem hp'
  have hfc := hr.flat.constr _ hpc
  obtain ⟨hfl, hte, hall⟩ := R64.subN_tame hfc.1 hfc.2 ht.1 ht.2.1 ht.2.2 hk1
  refine ⟨_, rfl, fun x i hxi h1 h2 => ?_⟩
  obtain ⟨e1, e2, e3⟩ := hall x.id
  have hsize : (p.c.gradSize t κ x.id).size = (p.exp.gradSize t κ x.id).size := by
    rw [e2]; simp [Constraint.gradSize, GradSize.add, GradSize.times]
  have hopsle : (p.exp.gradSize t κ x.id).ops ≤ (p.c.gradSize t κ x.id).ops := by
    simp only [Constraint.gradSize, GradSize.add, GradSize.times]; omega
  rw [hsize] at h1 ⊢
  rw [hf.mem_v2i] at hxi
  refine ⟨R64.gradV t x.id p.exp - slackD64 x.id p.slack, ?_, ?_⟩
  · have hslack : sp.slackOf n p.jrow = p.slack := by
      unfold StdProb.slackOf
      cases hfd : sp.var2index.find? (fun e => decide (n ≤ e.1.id) && e.1.name == slackNameJ p.jrow) with
      | some en =>
        have h1 := List.find?_some hfd
        have h2 := List.mem_of_find?_eq_some hfd
        simp only [Bool.and_eq_true, decide_eq_true_eq, beq_iff_eq] at h1
        have h3 := hf.mem_v2i.1 (show (en.1, en.2) ∈ sp.var2index from h2)
        rw [hf.slackJ hp' hnl (List.mem_of_getElem? h3) h1.1 h1.2]
        rfl
      | none =>
        cases hs' : p.slack with
        | some s =>
          obtain ⟨hsc, hsn⟩ := hf.newCol.2 ⟨p, hp', hs'⟩
          obtain ⟨i, hi⟩ := List.mem_iff_getElem?.1 hsc
          have hm : (s, i) ∈ sp.var2index := hf.mem_v2i.2 hi
          rw [List.find?_eq_none] at hfd
          have := hfd _ hm
          simp only [Bool.and_eq_true, decide_eq_true_eq, beq_iff_eq, not_and] at this
          exact absurd ((hok.slack_nl hnl).2 s hs').2 (this hsn)
        | none => rfl
    unfold StdProb.rowReal
    rw [hslack, e1]
    refine ((R64.realAt_hasDerivAt x.id _ ht.1).sub (R64.realAt_hasDerivAt x.id _ ht.2.1)).sub ?_
    cases p.slack with
    | none => exact hasDerivAt_const _ _
    | some s =>
      simp only [slackD64, Function.update_apply]
      split
      · rename_i hsx
        exact hasDerivAt_id _
      · exact hasDerivAt_const _ _
  · rcases hf.jac64 hp' hnl hfl hte hxi h1 (by omega) comp.constr.f.length cols.length with h3 | ⟨y, z, h3, h4, h5⟩
    · exact .inl h3
    · exact .inr ⟨y, z, h3, h4, h5.trans (R64.dErr_mono hopsle (R64.gok _ _).nonneg)⟩

end

section Examples
attribute [local instance] exLibm

/-! ## An example: minimise `x * x` subject to `x * x <= 2`, evaluated at the double next to the square root of 2 -/

theorem exN_reachApi : ReachableApiW HashOrder.listOrder (worldD exN) (countD exN) := runsD_reachable (by decide +kernel) (by decide +kernel)

/-- The value of the variable. -/
noncomputable def exNt : ℕ → ℝ := fun i => if i = 0 then (exNr : ℝ) else 0

theorem exN_noSelf : (worldD exN).m.NoSelfDiv := by
  have hx : ∀ i a b, ¬ Occurs (.div i a b) exNx := by rintro i a b (_ | ⟨h, _⟩); simp [exNx, Node.arguments] at h
  have hm : NoSelfDiv (.mul 1 exNx exNx) := by
    intro i a b ho
    rcases ho with _ | ⟨h, ho⟩
    simp only [Node.arguments, List.mem_cons, List.not_mem_nil, or_false, or_self] at h
    subst h
    exact absurd ho (hx _ _ _)
  refine ⟨fun f hf => ?_, fun c hc => ?_⟩
  · rw [exN_model.2] at hf
    rcases hf with h | h <;> cases h
    exact hm
  · rw [exN_model.1] at hc
    simp only [List.mem_singleton] at hc
    subst hc
    refine ⟨hm, ?_⟩
    rintro i a b (_ | ⟨h, _⟩)
    simp [Node.arguments, exNc] at h

theorem exN_abs : max 1 |exNt 0| = (exNr : ℝ) := by
  simp only [exNt, if_true, exNr]
  rw [abs_of_pos (by norm_num)]
  norm_num

theorem exN_tame {σ : Env F64} (hσ : σ 0 = some (dbl exNr)) : (Node.mul 1 exNx exNx).Tame σ exNt 1 := by
  have hv : ∃ a, σ 0 = some a ∧ a.Is (exNt 0) := ⟨_, hσ, F64.is_lit (q := exNr) (by decide +kernel) (by simp [exNt])⟩
  have h1 : (exNr : ℝ) ≤ 2 := by norm_num [exNr]
  have h2 : (exNr : ℝ) * exNr ≤ 4 := by norm_num [exNr]
  simp only [exNx, Node.Tame, Node.sizeAt, Node.opsAt, exN_abs]
  exact ⟨exD_range (by linarith) (by norm_num), ⟨exD_range (by linarith) (by norm_num), hv⟩, ⟨exD_range (by linarith) (by norm_num), hv⟩⟩

theorem exN_ctame {σ : Env F64} (hσ : σ 0 = some (dbl exNr)) : exNc.Tame σ exNt 1 := by
  have h1 : (exNr : ℝ) * exNr ≤ 4 := by norm_num [exNr]
  have c2 : (dbl 2).isFinite = true := by decide +kernel
  have r2 : (dbl 2).toReal = 2 := (F64.is_lit (q := 2) (by decide +kernel) (by norm_num) : (dbl 2).Is 2).toReal
  refine ⟨exN_tame hσ, ⟨exD_range ?_ (by simp [exNc, Node.opsAt]), c2⟩, exD_range ?_ (by simp [exNc, exNx, Node.opsAt])⟩
  · simp only [exNc, Node.sizeAt, r2]; norm_num
  · simp only [exNc, exNx, Node.sizeAt, r2, exN_abs]
    have : max (1 : ℝ) |2| = 2 := by norm_num
    rw [this]
    linarith

theorem exN_grad : ((Node.mul 1 exNx exNx).gradSize exNt 1 0) = ⟨2 * exNr, 2, 10⟩ := by
  simp only [exNx, Node.gradSize, if_true, GradSize.times, GradSize.add, Node.sizeAt, Node.opsAt, exN_abs, GradSize.mk.injEq]
  refine ⟨by ring, ?_⟩
  norm_num

/-- Evaluating the problem of the program: the derivative of the objective by `x` is within `2^-46` of the exact value. -/
example : ∃ sp m q r i y z, (worldD exN).m.stdProblem HashOrder.listOrder (countD exN) = .ok (sp, m) ∧ q ∈ sp.prob.views ∧
    q.evaluate [dbl 0, dbl exNr] = .ok r ∧ (exNx, i) ∈ sp.var2index ∧ r.buf.gphi[i]? = some y ∧ y.Is z ∧ |z - 2 * (exNr : ℝ)| ≤ 2 ^ (-46 : ℤ) := by
  have hd := exN_data
  cases hsp : (worldD exN).m.stdProblem HashOrder.listOrder (countD exN) with
  | error _ => rw [hsp] at hd; cases hd
  | ok sp =>
    obtain ⟨sp, m⟩ := sp
    rw [hsp] at hd
    have henv : (match (worldD exN).m.stdProblem HashOrder.listOrder (countD exN) with
      | .ok r => decide (pointOf r.1.var2index [dbl 0, dbl exNr] 0 = some (dbl exNr)) && r.1.var2index.any (fun e => decide (e = (exNx, 1)))
      | .error _ => false) = true := by decide +kernel
    rw [hsp] at henv
    simp only [Bool.and_eq_true, decide_eq_true_eq, List.any_eq_true] at henv
    obtain ⟨henv, e, hem, rfl⟩ := henv
    simp only [exNdata, Bool.and_eq_true, List.all_eq_true, decide_eq_true_eq, Bool.not_eq_true', beq_iff_eq] at hd
    obtain ⟨⟨⟨⟨hall, hne⟩, hv2i⟩, hj⟩, hn⟩ := hd
    obtain ⟨q, hq⟩ := List.exists_mem_of_ne_nil sp.prob.views (by rintro h; rw [h] at hne; simp at hne)
    have hnlp : ∃ q, sp.prob = .nlp q := by
      cases hp : sp.prob <;> rw [hp] at hn <;> simp at hn
      exact ⟨_, rfl⟩
    have hx2 : (exNr : ℝ) ≤ 2 := by norm_num [exNr]
    obtain ⟨r, hr, -, hall⟩ := C86_minimize exN_reachApi exN_noSelf hsp (.inl hnlp) hq (ops := []) rfl (xs := [dbl 0, dbl exNr]) (by rw [hv2i]; rfl)
      exN_model.2 (exN_tame henv)
    obtain ⟨y, z, g, h1, h2, h3, h4⟩ := hall exNx 1 hem
      (by simp only [exNx, Node.id]
          rw [show Node.gradSize exNt 1 0 (.mul 1 (.var 0 "x" .continuous) (.var 0 "x" .continuous)) = _ from exN_grad]
          exact le_trans (by simp only; linarith) exD_max)
      (by simp only [exNx, Node.id]
          rw [show Node.gradSize exNt 1 0 (.mul 1 (.var 0 "x" .continuous) (.var 0 "x" .continuous)) = _ from exN_grad]
          norm_num)
    refine ⟨sp, m, q, r, 1, y, z, rfl, hq, hr, hem, h1, h2, ?_⟩
    have hg : g = 2 * exNr := by
      refine h3.unique ?_
      have hfun : (fun s => (Node.mul 1 exNx exNx).realAt (Function.update exNt exNx.id s)) = fun s => id s * id s := by
        funext s
        simp [exNx, Node.realAt, Node.id]
      rw [hfun]
      have := (hasDerivAt_id (exNt exNx.id)).mul (hasDerivAt_id (exNt exNx.id))
      refine HasDerivAt.congr_deriv this ?_
      have e0 : exNt exNx.id = exNr := rfl
      simp only [id, e0]
      ring
    rw [hg] at h4
    refine h4.trans ?_
    simp only [exNx, Node.id]
    rw [show Node.gradSize exNt 1 0 (.mul 1 (.var 0 "x" .continuous) (.var 0 "x" .continuous)) = _ from exN_grad]
    have : ((1 + 2 ^ (-53 : ℤ) : ℝ) ^ (2 * (10 + 1)) - 1) * (2 * (exNr : ℝ)) ≤ ((1 + 2 ^ (-53 : ℤ) : ℝ) ^ (2 * (10 + 1)) - 1) * 4 :=
      mul_le_mul_of_nonneg_left (by linarith) (by norm_num)
    refine this.trans ?_
    norm_num

/-- The hypotheses of `C86_rows` hold for the row of the program. -/
example : exNc.Tame (fun i => if i = 0 then some (dbl exNr) else none) exNt 1 ∧ 2 * (exNc.gradSize exNt 1 0).size ≤ 2 ^ (1022 : ℤ) ∧
    (exNc.gradSize exNt 1 0).ops = 16 := by
  have hx2 : (exNr : ℝ) ≤ 2 := by norm_num [exNr]
  refine ⟨exN_ctame (by simp), ?_, ?_⟩
  · refine le_trans ?_ exD_max
    simp only [Constraint.gradSize, exNc]
    rw [exN_grad]
    simp only [GradSize.add, GradSize.times, Node.gradSize, GradSize.none]
    linarith
  · simp only [Constraint.gradSize, exNc]
    rw [exN_grad]
    simp [GradSize.add, GradSize.times, Node.gradSize, GradSize.none]

end Examples

end Verif
