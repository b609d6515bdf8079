import Verif.Proofs.Ipopt
import Verif.Props.CmdSolver

/-! # Properties C46, C51 - C54: the Ipopt interface -/

namespace Verif

set_option linter.unusedSectionVars false
set_option linter.unusedSimpArgs false

section
variable {F : Type} [FloatOps F]

/-! ## C53 refusals -/

/-- C53: an inconsistent request returns FALSE, writes nothing and leaves the problem as it is, except for the request
`LateRefusal`. -/
theorem C53_refuses_partial {q : Minlp F} {c : Call F} (h : c.Inconsistent q) (hl : ¬ c.LateRefusal) :
    c.exec q = .ok (q, ⟨false, [], [], []⟩) := by
  cases c with
  | f n x newX out data =>
    simp only [Call.exec, evalFCb]
    cases x with
    | none => rfl
    | some x =>
      rcases h with h | h | h | h <;> simp_all [Answer.refuse]
  | gradF n x newX out data =>
    simp only [Call.exec, evalGradFCb]
    cases x with
    | none => rfl
    | some x =>
      rcases h with h | h | h | h <;> simp_all [Answer.refuse]
  | g n x newX m out data =>
    simp only [Call.exec, evalGCb]
    cases x with
    | none => rfl
    | some x =>
      by_cases h1 : (!out || !data) = true
      · simp [h1, Answer.refuse]
      · by_cases h2 : n = q.nx
        · have : m ≠ (q.na + q.nf : Nat) := by
            rcases h with h | h | h | h | h <;> simp_all
          simp [h1, h2, this, Answer.refuse, -Int.natCast_add, -Nat.cast_add]
        · simp [h1, h2, Answer.refuse]
  | jacG n x newX m nele irow jcol values data =>
    simp only [Call.exec, evalJacGCb]
    by_cases h0 : data = true
    swap
    · simp [h0, Answer.refuse]
    by_cases h1 : n = q.nx
    swap
    · simp [h1, h0, Answer.refuse]
    by_cases h2 : m = (q.na + q.nf : Nat)
    swap
    · simp [h1, h0, h2, Answer.refuse, -Int.natCast_add, -Nat.cast_add]
    by_cases h3 : nele = (q.a.nnz + q.buf.j.nnz : Nat)
    swap
    · simp [h1, h0, h2, h3, Answer.refuse, -Int.natCast_add, -Nat.cast_add]
    simp only [Call.Inconsistent, h0, h1, h2, h3, ne_eq, not_true, false_or, Bool.true_eq_false] at h
    subst h0 h1 h2 h3
    rcases h with ⟨rfl, h⟩ | ⟨rfl, rfl, rfl⟩
    · have e : (!irow || !jcol) = true := by rcases h with rfl | rfl <;> simp
      simp only [Bool.not_true, Bool.false_eq_true, if_false, bne_self_eq_false, Bool.not_false, if_true, e, Answer.refuse]
    · simp only [Bool.not_true, Bool.false_eq_true, if_false, bne_self_eq_false, Bool.not_false, if_true, BEq.rfl, Answer.refuse]
  | h n x newX s m lambda newLambda nele irow jcol values data =>
    simp only [Call.exec, evalHCb]
    by_cases h0 : data = true
    swap
    · simp [h0, Answer.refuse]
    by_cases h1 : n = q.nx
    swap
    · simp [h1, h0, Answer.refuse]
    by_cases h2 : m = (q.na + q.nf : Nat)
    swap
    · simp [h1, h0, h2, Answer.refuse, -Int.natCast_add, -Nat.cast_add]
    by_cases h3 : nele = (q.buf.hphi.nnz + q.hcomb.nnz : Nat)
    swap
    · simp [h1, h0, h2, h3, Answer.refuse, -Int.natCast_add, -Nat.cast_add]
    simp only [Call.Inconsistent, h0, h1, h2, h3, ne_eq, not_true, false_or, Bool.true_eq_false] at h
    subst h0 h1 h2 h3
    rcases h with ⟨rfl, h⟩ | ⟨rfl, rfl, rfl⟩ | ⟨rfl, rfl, rfl⟩
    · have e : (!irow || !jcol) = true := by rcases h with rfl | rfl <;> simp
      simp only [Bool.not_true, Bool.false_eq_true, if_false, bne_self_eq_false, Bool.not_false, if_true, e, Answer.refuse]
    · simp only [Bool.not_true, Bool.false_eq_true, if_false, bne_self_eq_false, Bool.not_false, if_true, BEq.rfl, Answer.refuse]
    · have hx : newX = 1 → x = none := by
        intro h1
        cases x with
        | none => rfl
        | some x => exact absurd ⟨rfl, h1, by simp, rfl, rfl⟩ hl
      by_cases h1 : newX = 1
      · rw [hx h1]
        simp only [h1, Bool.not_true, Bool.false_eq_true, if_false, bne_self_eq_false, Bool.not_false, if_true, BEq.rfl, Answer.refuse]
      · have e : (newX == 1) = false := by simp [h1]
        simp only [e, evalIfNew, Bool.not_true, Bool.false_eq_true, if_false, bne_self_eq_false, Bool.not_false, if_true, BEq.rfl, Answer.refuse,
          R.ok_bind]

/-- C53 for every inconsistent request that returns: it returns FALSE and writes nothing; if it is the one that is refused too late,
the problem has been evaluated at the point of the request before that, otherwise it is as before. -/
theorem C53_writes_nothing {q q' : Minlp F} {c : Call F} {a : Answer F} (h : c.Inconsistent q) (he : c.exec q = .ok (q', a)) :
    a = ⟨false, [], [], []⟩ ∧ (q' = q ∨ c.LateRefusal ∧ ∃ x, q.evaluate x = .ok q') := by
  by_cases hl : c.LateRefusal
  · cases c with
    | h n x newX s m lambda newLambda nele irow jcol values data =>
      obtain ⟨rfl, rfl, hx, rfl, rfl⟩ := hl
      cases x with
      | none => exact absurd rfl hx
      | some x =>
      simp only [Call.exec, evalHCb] at he
      split at he
      · cases he; exact ⟨rfl, .inl rfl⟩
      split at he
      · cases he; exact ⟨rfl, .inl rfl⟩
      split at he
      · cases he; exact ⟨rfl, .inl rfl⟩
      split at he
      · cases he; exact ⟨rfl, .inl rfl⟩
      simp only [Bool.not_true, Bool.false_eq_true, if_false, BEq.rfl, if_true] at he
      rw [R.bind_ok_iff] at he
      obtain ⟨q1, h1, he⟩ := he
      cases he
      refine ⟨rfl, .inr ⟨⟨rfl, rfl, by simp, rfl, rfl⟩, ?_⟩⟩
      simp only [evalIfNew, BEq.rfl, if_true] at h1
      exact ⟨_, h1⟩
    | _ => exact absurd hl (by simp [Call.LateRefusal])
  · rw [C53_refuses_partial h hl] at he
    cases he
    exact ⟨rfl, .inl rfl⟩

/-! ## C51, C52 histories -/

variable {q0 q : Minlp F} {val : List F → EvalBuf F} {p r : Option (List F)} {calls : List (Call F)}

theorem CbInv.inconsistent (h : CbInv q0 q) (c : Call F) : c.Inconsistent q ↔ c.Inconsistent q0 := by
  cases c <;> simp only [Call.Inconsistent, h.nx, h.na, h.nf, h.nnzA, h.nnzJ, h.nnzH, h.nnzC]

/-- One request of the protocol. -/
theorem CbAt.values (hs : q0.Sound) (hv : EvalsTo q0 val) (h : CbAt q0 val p q) {c : Call F} {x : List F} (hc : c.AsksValues q0 x)
    (hnew : c.newX = 1 ∨ p = some x) : ∃ q' a, c.exec q = .ok (q', a) ∧ CbAt q0 val (some x) q' := by
  cases c with
  | f n px newX out data =>
    obtain ⟨rfl, rfl, hx, rfl, rfl⟩ := hc
    obtain ⟨q', h1, h2⟩ := h.f_ok hv hx hnew
    exact ⟨q', _, h1, h2⟩
  | gradF n px newX out data =>
    obtain ⟨rfl, rfl, hx, rfl, rfl⟩ := hc
    obtain ⟨q', h1, h2⟩ := h.gradF_ok hs hv hx hnew
    exact ⟨q', _, h1, h2⟩
  | g n px newX m out data =>
    obtain ⟨rfl, rfl, hx, rfl, rfl, rfl⟩ := hc
    obtain ⟨q', h1, h2⟩ := h.g_ok hs hv hx hnew
    exact ⟨q', _, h1, h2⟩
  | jacG n px newX m nele irow jcol values data =>
    obtain ⟨rfl, rfl, hx, rfl, rfl, rfl, rfl⟩ := hc
    obtain ⟨q', h1, h2⟩ := h.jacG_ok hs hv hx hnew irow jcol
    exact ⟨q', _, h1, h2⟩
  | h n px newX s m lambda newLambda nele irow jcol values data =>
    obtain ⟨rfl, rfl, hx, rfl, rfl, rfl, rfl, lam, rfl, hl⟩ := hc
    obtain ⟨q', a, h1, h2, -⟩ := h.h_ok hs hv hx hnew hl s newLambda irow jcol
    exact ⟨q', a, h1, h2⟩

theorem CbInv.pattern (hs : q0.Sound) (hsm : q0.Small) (h : CbInv q0 q) {c : Call F} (hc : c.AsksPattern q0) :
    ∃ a, c.exec q = .ok (q, a) := by
  cases c with
  | jacG n px newX m nele irow jcol values data =>
    obtain ⟨rfl, rfl, rfl, rfl, rfl, rfl, rfl⟩ := hc
    exact ⟨_, h.jac_pattern hs hsm.a hsm.j px newX⟩
  | h n px newX s m lambda newLambda nele irow jcol values data =>
    obtain ⟨rfl, rfl, rfl, rfl, rfl, rfl, rfl⟩ := hc
    exact ⟨_, h.h_pattern hs hsm.hphi hsm.hcomb px newX s lambda newLambda⟩
  | _ => exact hc.elim

theorem Protocol.at (hs : q0.Sound) (hsm : q0.Small) (hv : EvalsTo q0 val) (hp : Protocol q0 p calls r) (h : CbAt q0 val p q) :
    ∃ q', runCalls q calls = .ok q' ∧ CbAt q0 val r q' := by
  induction hp generalizing q with
  | nil p => exact ⟨q, rfl, h⟩
  | values hc hnew _ ih =>
    obtain ⟨q1, a, h1, h2⟩ := h.values hs hv hc hnew
    obtain ⟨q', h3, h4⟩ := ih h2
    exact ⟨q', by simp [runCalls, h1, h3], h4⟩
  | pattern hc _ ih =>
    obtain ⟨a, h1⟩ := h.toCbInv.pattern hs hsm hc
    obtain ⟨q', h3, h4⟩ := ih h
    exact ⟨q', by simp [runCalls, h1, h3], h4⟩
  | refused hc hl _ ih =>
    have h1 := C53_refuses_partial ((h.toCbInv.inconsistent _).2 hc) hl
    obtain ⟨q', h3, h4⟩ := ih h
    exact ⟨q', by simp [runCalls, h1, h3], h4⟩

theorem CbAt.start : CbAt q0 val none q0 := ⟨.refl _, fun _ h => by cases h⟩

/-- C51: a problem with fitting dimensions whose evaluation is a function `val` of the point, and any sequence of callbacks that obeys the
`new_x` protocol. No callback of the sequence panics, and after the sequence a request for the objective, the gradient, the
constraints or the Jacobian at `x` that obeys the protocol returns TRUE and delivers the numbers of that very point `x`:
`phi(x)`, the gradient, `[A x - b; f(x)]`, and the values of the entries of the Jacobian of `[A x - b; f(x)]`, in a fixed order (first
those of `A`, then those of `J`, each in the order of the matrix). -/
theorem C51_answers (hs : q0.Sound) (hsm : q0.Small) (hv : EvalsTo q0 val) (hp : Protocol q0 none calls p) {x : List F} (hx : x.length = q0.nx)
    {newX : Int} (hnew : newX = 1 ∨ p = some x) :
    ∃ q, runCalls q0 calls = .ok q ∧
      (∃ q', evalFCb q q0.nx (some x) newX true true = .ok (q', ⟨true, [(val x).phi], [], []⟩)) ∧
      (∃ q', evalGradFCb q q0.nx (some x) newX true true = .ok (q', ⟨true, (val x).gphi, [], []⟩)) ∧
      (∃ q', evalGCb q q0.nx (some x) newX (q0.na + q0.nf : Nat) true true = .ok (q', ⟨true, constraintValues q0 (val x) x, [], []⟩)) ∧
      (∀ irow jcol, ∃ q', evalJacGCb q q0.nx (some x) newX (q0.na + q0.nf : Nat) (q0.a.nnz + q0.buf.j.nnz : Nat) irow jcol true true =
        .ok (q', ⟨true, (jacobianEntries q0 (val x)).map (fun e => e.2.2), [], []⟩)) := by
  obtain ⟨q, h1, h2⟩ := hp.at hs hsm hv CbAt.start
  refine ⟨q, h1, ?_, ?_, ?_, fun irow jcol => ?_⟩
  · obtain ⟨q', h, -⟩ := h2.f_ok hv hx hnew; exact ⟨q', h⟩
  · obtain ⟨q', h, -⟩ := h2.gradF_ok hs hv hx hnew; exact ⟨q', h⟩
  · obtain ⟨q', h, -⟩ := h2.g_ok hs hv hx hnew; exact ⟨q', h⟩
  · obtain ⟨q', h, -⟩ := h2.jacG_ok hs hv hx hnew irow jcol; exact ⟨q', h⟩

/-- C51, sparsity: the rows and columns announced for the Jacobian, at any moment, are those of the entries whose values
`C51_answers` delivers, in the same order, if the problem has no linear constraints or no entry of the Jacobian of the nonlinear ones. Missing: problems
with both, for which the announced rows are wrong (`C51_counterexample`). -/
theorem C51_pattern_partial (hs : q0.Sound) (hsm : q0.Small) (hv : EvalsTo q0 val) (hp : Protocol q0 none calls p)
    (honly : q0.na = 0 ∨ q0.buf.j.rowInds = []) (px : Option (List F)) (newX : Int) {x : List F} (hx : x.length = q0.nx) :
    ∃ q, runCalls q0 calls = .ok q ∧
      evalJacGCb q q0.nx px newX (q0.na + q0.nf : Nat) (q0.a.nnz + q0.buf.j.nnz : Nat) true true false true =
        .ok (q, ⟨true, [], (jacobianEntries q0 (val x)).map (fun e => e.1), (jacobianEntries q0 (val x)).map (fun e => e.2.1)⟩) := by
  obtain ⟨q, h1, h2⟩ := hp.at hs hsm hv CbAt.start
  refine ⟨q, h1, ?_⟩
  rw [h2.toCbInv.jac_pattern hs hsm.a hsm.j px newX]
  have hsh := (hv.shape x hx).j
  have hj : (val x).j.WF := hsh.wf hs.j
  have f1 : ((val x).j.triplets.map fun t => (((q0.na + t.1 : Nat) : Int))) = q0.buf.j.rowInds.map Int.ofNat := by
    rw [← hsh.2.1, ← triplets_rows hj, List.map_map]
    refine List.map_congr_left fun t ht => ?_
    rcases honly with h0 | h0
    · simp [h0]
    · rw [← hsh.2.1, ← triplets_rows hj, List.map_eq_nil_iff] at h0
      rw [h0] at ht; cases ht
  have f2 : ((val x).j.triplets.map fun t => ((t.2.1 : Nat) : Int)) = q0.buf.j.colInds.map Int.ofNat := by
    rw [← hsh.2.2.1, ← triplets_cols hj, List.map_map]; rfl
  have f3 : (q0.a.triplets.map fun t => ((t.1 : Nat) : Int)) = q0.a.rowInds.map Int.ofNat := by
    rw [← triplets_rows hs.aWF, List.map_map]; rfl
  have f4 : (q0.a.triplets.map fun t => ((t.2.1 : Nat) : Int)) = q0.a.colInds.map Int.ofNat := by
    rw [← triplets_cols hs.aWF, List.map_map]; rfl
  simp only [jacobianEntries, List.map_append, List.map_map, Function.comp_def, f1, f2, f3, f4]

/-- C51 is false for a problem with linear and nonlinear constraints: whatever the sequence of callbacks, the row numbers announced for the
entries of `J` are not shifted by the number of linear constraints. Every entry of `J` is announced in a wrong row, and so is
the derivative of a nonlinear constraint taken for that of a linear one. -/
theorem C51_counterexample (hs : q0.Sound) (hsm : q0.Small) (hv : EvalsTo q0 val) (hp : Protocol q0 none calls p)
    (hna : q0.na ≠ 0) (hj : q0.buf.j.rowInds ≠ []) (px : Option (List F)) (newX : Int) {x : List F} (hx : x.length = q0.nx) :
    ∃ q a, runCalls q0 calls = .ok q ∧
      evalJacGCb q q0.nx px newX (q0.na + q0.nf : Nat) (q0.a.nnz + q0.buf.j.nnz : Nat) true true false true = .ok (q, a) ∧
      a.ok = true ∧ a.irow = q0.a.rowInds.map Int.ofNat ++ q0.buf.j.rowInds.map Int.ofNat ∧
      (jacobianEntries q0 (val x)).map (fun e => e.1) = q0.a.rowInds.map Int.ofNat ++ q0.buf.j.rowInds.map (fun i => ((q0.na + i : Nat) : Int)) ∧
      a.irow ≠ (jacobianEntries q0 (val x)).map (fun e => e.1) := by
  obtain ⟨q, h1, h2⟩ := hp.at hs hsm hv CbAt.start
  have hsh := (hv.shape x hx).j
  have hwf : (val x).j.WF := hsh.wf hs.j
  have f1 : ((val x).j.triplets.map fun t => (((q0.na + t.1 : Nat) : Int))) = q0.buf.j.rowInds.map (fun i => ((q0.na + i : Nat) : Int)) := by
    rw [← hsh.2.1, ← triplets_rows hwf, List.map_map]; rfl
  have f3 : (q0.a.triplets.map fun t => ((t.1 : Nat) : Int)) = q0.a.rowInds.map Int.ofNat := by
    rw [← triplets_rows hs.aWF, List.map_map]; rfl
  have f5 : (jacobianEntries q0 (val x)).map (fun e => e.1) = q0.a.rowInds.map Int.ofNat ++ q0.buf.j.rowInds.map (fun i => ((q0.na + i : Nat) : Int)) := by
    simp only [jacobianEntries, List.map_append, List.map_map, Function.comp_def, f1, f3]
  refine ⟨q, _, h1, h2.toCbInv.jac_pattern hs hsm.a hsm.j px newX, rfl, by simp, f5, ?_⟩
  rw [f5]
  simp only [List.map_append]
  intro he
  have he := List.append_cancel_left he
  cases hr : q0.buf.j.rowInds with
  | nil => exact hj hr
  | cons i is =>
    rw [hr] at he
    simp only [List.map_cons, List.cons.injEq] at he
    have := he.1
    simp only [Int.ofNat_eq_natCast] at this
    omega

/-- C52: after any sequence of callbacks that obeys the protocol, a request for the Hessian values at `x` with multipliers `lambda` that
are announced as new returns TRUE and delivers the values of the entries of the Hessian of
`obj_factor * phi + sum of nu_k f_k` at that very point, where `nu` are the multipliers after the `na` first ones. Missing: requests
with `new_lambda` FALSE (`C52_counterexample`, `C52_counterexample_silent`). -/
theorem C52_hessian_partial (hs : q0.Sound) (hsm : q0.Small) (hv : EvalsTo q0 val) (hp : Protocol q0 none calls p) {x : List F}
    (hx : x.length = q0.nx) {newX : Int} (hnew : newX = 1 ∨ p = some x) {lambda : List F} (hl : lambda.length = q0.na + q0.nf) (s : F)
    (irow jcol : Bool) :
    ∃ q q', runCalls q0 calls = .ok q ∧
      evalHCb q q0.nx (some x) newX s (q0.na + q0.nf : Nat) (some lambda) 1 (q0.buf.hphi.nnz + q0.hcomb.nnz : Nat) irow jcol true true =
        .ok (q', ⟨true, (hessianEntries (val x) s (lambda.drop q0.na)).map (fun e => e.2.2), [], []⟩) := by
  obtain ⟨q, h1, h2⟩ := hp.at hs hsm hv CbAt.start
  obtain ⟨q', a, h3, -, h4, -⟩ := h2.h_ok hs hv hx hnew hl s 1 irow jcol
  exact ⟨q, q', h1, by rw [h3, h4 rfl]⟩

/-- C52, sparsity: the rows and columns announced for the Hessian, at any moment, are those of the entries of `C52_hessian_partial`,
in the same order. -/
theorem C52_pattern (hs : q0.Sound) (hsm : q0.Small) (hv : EvalsTo q0 val) (hp : Protocol q0 none calls p) (px : Option (List F))
    (newX newLambda : Int) (s s' : F) (lambda : Option (List F)) {x : List F} (hx : x.length = q0.nx) {nu : List F} (hnu : nu.length = q0.nf) :
    ∃ q, runCalls q0 calls = .ok q ∧
      evalHCb q q0.nx px newX s (q0.na + q0.nf : Nat) lambda newLambda (q0.buf.hphi.nnz + q0.hcomb.nnz : Nat) true true false true =
        .ok (q, ⟨true, [], (hessianEntries (val x) s' nu).map (fun e => e.1), (hessianEntries (val x) s' nu).map (fun e => e.2.1)⟩) := by
  obtain ⟨q, h1, h2⟩ := hp.at hs hsm hv CbAt.start
  refine ⟨q, h1, ?_⟩
  rw [h2.toCbInv.h_pattern hs hsm.hphi hsm.hcomb]
  have hsh := hv.shape x hx
  have hphi : (val x).hphi.WF := hsh.hphi.wf hs.hphi
  have hwf : ∀ m ∈ (val x).h, m.WF := samePat_wf hsh.h hs.h
  have hhl : (val x).h.length = nu.length := by rw [← hsh.h.length_eq, hnu]; exact hs.hnum
  have f1 : ((val x).hphi.triplets.map fun t => ((t.1 : Nat) : Int)) = q0.buf.hphi.rowInds.map Int.ofNat := by
    rw [← hsh.hphi.2.1, ← triplets_rows hphi, List.map_map]; rfl
  have f2 : ((val x).hphi.triplets.map fun t => ((t.2.1 : Nat) : Int)) = q0.buf.hphi.colInds.map Int.ofNat := by
    rw [← hsh.hphi.2.2.1, ← triplets_cols hphi, List.map_map]; rfl
  have hcomb : ∀ (g : Nat × Nat × F → Nat) (k : Coo F → List Nat), (∀ m : Coo F, m.WF → m.triplets.map g = k m) →
      (∀ (m : Coo F) (nu : F), (m.triplets.map fun t => (t.1, t.2.1, nu *. t.2.2)).map g = m.triplets.map g) →
      (weighted (val x).h nu).map g = (val x).h.flatMap k := by
    intro g k hk hg
    unfold weighted
    generalize (val x).h = L at hwf hhl
    clear hsh hphi f1 f2 hx hnu
    induction L generalizing nu with
    | nil => simp
    | cons m L ih =>
      cases nu with
      | nil => simp at hhl
      | cons v nu =>
        have := ih (fun m hm => hwf m (by simp [hm])) (nu := nu) (by simpa using hhl)
        simp only [List.zip_cons_cons, List.flatMap_cons, List.map_append, this]
        rw [hg m v, hk m (hwf m (by simp))]
  have f3 : ((weighted (val x).h nu).map fun t => ((t.1 : Nat) : Int)) = q0.hcomb.rowInds.map Int.ofNat := by
    rw [hs.combRows, List.flatMap_def, ← samePat_map hsh.h Coo.rowInds fun a b h => h.2.1, ← List.flatMap_def,
      ← hcomb (fun t => t.1) Coo.rowInds (fun m hm => triplets_rows hm) (fun m nu => by simp [Function.comp_def]), List.map_map]
    rfl
  have f4 : ((weighted (val x).h nu).map fun t => ((t.2.1 : Nat) : Int)) = q0.hcomb.colInds.map Int.ofNat := by
    rw [hs.combCols, List.flatMap_def, ← samePat_map hsh.h Coo.colInds fun a b h => h.2.2.1, ← List.flatMap_def,
      ← hcomb (fun t => t.2.1) Coo.colInds (fun m hm => triplets_cols hm) (fun m nu => by simp [Function.comp_def]), List.map_map]
    rfl
  simp only [hessianEntries, List.map_append, List.map_map, Function.comp_def, f1, f2, f3, f4]

/-- C52 is false without new multipliers: a request for the Hessian at a new point with multipliers that are those of the
request before delivers, for the constraints, the numbers of the combined Hessian as it was before the request: whatever the
point, what an earlier request left there. -/
theorem C52_counterexample (hs : q0.Sound) (hsm : q0.Small) (hv : EvalsTo q0 val) (hp : Protocol q0 none calls p) {x : List F}
    (hx : x.length = q0.nx) {lambda : List F} (hl : lambda.length = q0.na + q0.nf) (s : F) (irow jcol : Bool) :
    ∃ q q', runCalls q0 calls = .ok q ∧
      evalHCb q q0.nx (some x) 1 s (q0.na + q0.nf : Nat) (some lambda) 0 (q0.buf.hphi.nnz + q0.hcomb.nnz : Nat) irow jcol true true =
        .ok (q', ⟨true, (val x).hphi.triplets.map (fun t => s *. t.2.2) ++ q.hcomb.data, [], []⟩) := by
  obtain ⟨q, h1, h2⟩ := hp.at hs hsm hv CbAt.start
  obtain ⟨q', a, h3, -, -, h4, -⟩ := h2.h_ok hs hv hx (newX := 1) (.inl rfl) hl s 0 irow jcol
  exact ⟨q, q', h1, by rw [h3, h4 (by decide) rfl]⟩

/-- C52 is false without new point and new multipliers: the callback returns TRUE and writes nothing, whatever the objective
factor. -/
theorem C52_counterexample_silent (hs : q0.Sound) (hsm : q0.Small) (hv : EvalsTo q0 val) {x : List F} (hp : Protocol q0 none calls (some x))
    (hx : x.length = q0.nx) {lambda : List F} (hl : lambda.length = q0.na + q0.nf) (s : F) (irow jcol : Bool) :
    ∃ q q', runCalls q0 calls = .ok q ∧
      evalHCb q q0.nx (some x) 0 s (q0.na + q0.nf : Nat) (some lambda) 0 (q0.buf.hphi.nnz + q0.hcomb.nnz : Nat) irow jcol true true =
        .ok (q', ⟨true, [], [], []⟩) := by
  obtain ⟨q, h1, h2⟩ := hp.at hs hsm hv CbAt.start
  obtain ⟨q', a, h3, -, -, -, h4⟩ := h2.h_ok hs hv hx (newX := 0) (.inr rfl) hl s 0 irow jcol
  exact ⟨q, q', h1, by rw [h3, h4 (by decide) (by decide)]⟩

end

end Verif
