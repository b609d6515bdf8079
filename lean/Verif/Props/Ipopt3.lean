import Verif.Spec.IpoptSolver
import Verif.Props.Ipopt2
import Verif.Props.Solve
import Verif.Props.EndToEnd

/-! # Property C58: solving with Ipopt, end to end -/

namespace Verif

set_option linter.unusedSectionVars false
set_option linter.unusedSimpArgs false

section
variable {F : Type} [FloatOps F] {q0 q : Minlp F} {val : List F → EvalBuf F} {p : Option (List F)}

/-- The answers to requests for numbers are truthful. -/
theorem CbAt.truthful (hs : q0.Sound) (hv : EvalsTo q0 val) (h : CbAt q0 val p q) {c : Call F} {x : List F} (hc : c.AsksValues q0 x)
    (hnew : c.newX = 1 ∨ p = some x) : ∃ q' a, c.exec q = .ok (q', a) ∧ CbAt q0 val (some x) q' ∧ (q0.oracle val).Truthful c a := by
  cases c with
  | f n px newX out data =>
    obtain ⟨rfl, rfl, hx, rfl, rfl⟩ := hc
    obtain ⟨q', h1, h2⟩ := h.f_ok hv hx hnew
    exact ⟨q', _, h1, h2, fun _ y hy => by cases hy; rfl⟩
  | gradF n px newX out data =>
    obtain ⟨rfl, rfl, hx, rfl, rfl⟩ := hc
    obtain ⟨q', h1, h2⟩ := h.gradF_ok hs hv hx hnew
    exact ⟨q', _, h1, h2, fun _ y hy => by cases hy; rfl⟩
  | g n px newX m out data =>
    obtain ⟨rfl, rfl, hx, rfl, rfl, rfl⟩ := hc
    obtain ⟨q', h1, h2⟩ := h.g_ok hs hv hx hnew
    exact ⟨q', _, h1, h2, fun _ y hy => by cases hy; rfl⟩
  | jacG n px newX m nele irow jcol values data =>
    obtain ⟨rfl, rfl, hx, rfl, rfl, rfl, rfl⟩ := hc
    obtain ⟨q', h1, h2⟩ := h.jacG_ok hs hv hx hnew irow jcol
    exact ⟨q', _, h1, h2, fun _ y hy => by cases hy; rfl⟩
  | h n px newX s m lambda newLambda nele irow jcol values data =>
    obtain ⟨rfl, rfl, hx, rfl, rfl, rfl, rfl, lam, rfl, hl⟩ := hc
    obtain ⟨q', a, h1, h2, h3, -⟩ := h.h_ok hs hv hx hnew hl s newLambda irow jcol
    refine ⟨q', a, h1, h2, fun _ hn y l hy hl' => ?_⟩
    cases hy; cases hl'
    rw [h3 hn]
    rfl

/-- The answers to requests for patterns are truthful, except those for the Jacobian of a problem with both kinds of constraints. -/
theorem CbInv.truthful (hs : q0.Sound) (hsm : q0.Small) (hv : EvalsTo q0 val) (h : CbInv q0 q) {c : Call F} (hc : c.AsksPattern q0) :
    ∃ a, c.exec q = .ok (q, a) ∧ ((c.IsJacPattern → q0.na = 0 ∨ q0.buf.j.rowInds = []) → (q0.oracle val).Truthful c a) := by
  cases c with
  | jacG n px newX m nele irow jcol values data =>
    obtain ⟨rfl, rfl, rfl, rfl, rfl, rfl, rfl⟩ := hc
    refine ⟨_, h.jac_pattern hs hsm.a hsm.j px newX, fun honly _ x hx => ?_⟩
    have hx : x.length = q0.nx := by exact_mod_cast hx
    have honly := honly rfl
    have hsh := (hv.shape x hx).j
    have hj : (val x).j.WF := hsh.wf hs.j
    have f1 : ((val x).j.triplets.map fun t => (((q0.na + t.1 : Nat) : Int))) = q0.buf.j.rowInds.map Int.ofNat := by
      rw [← hsh.2.1, ← triplets_rows hj, List.map_map]
      refine List.map_congr_left fun t ht => ?_
      rcases honly with h0 | h0
      · simp [h0]
      · rw [← hsh.2.1, ← triplets_rows hj, List.map_eq_nil_iff] at h0
        rw [h0] at ht; cases ht
    have f2 : ((val x).j.triplets.map fun t => ((t.2.1 : Nat) : Int)) = q0.buf.j.colInds.map Int.ofNat := by
      rw [← hsh.2.2.1, ← triplets_cols hj, List.map_map]; rfl
    have f3 : (q0.a.triplets.map fun t => ((t.1 : Nat) : Int)) = q0.a.rowInds.map Int.ofNat := by
      rw [← triplets_rows hs.aWF, List.map_map]; rfl
    have f4 : (q0.a.triplets.map fun t => ((t.2.1 : Nat) : Int)) = q0.a.colInds.map Int.ofNat := by
      rw [← triplets_cols hs.aWF, List.map_map]; rfl
    simp only [Minlp.oracle, jacobianEntries, List.map_append, List.map_map, Function.comp_def, f1, f2, f3, f4, and_self]
  | h n px newX s m lambda newLambda nele irow jcol values data =>
    obtain ⟨rfl, rfl, rfl, rfl, rfl, rfl, rfl⟩ := hc
    have he := h.h_pattern hs hsm.hphi hsm.hcomb px newX s lambda newLambda
    refine ⟨_, he, fun _ _ x s' lam hx hl => ?_⟩
    have hx : x.length = q0.nx := by exact_mod_cast hx
    have hl : lam.length = q0.na + q0.nf := by exact_mod_cast hl
    have hnu : (lam.drop q0.na).length = q0.nf := by rw [List.length_drop, hl]; omega
    obtain ⟨q', h1, h2⟩ := C52_pattern hs hsm hv (.nil none) none 0 0 s' s' none hx hnu
    cases h1
    have he' := (CbInv.refl q0).h_pattern hs hsm.hphi hsm.hcomb none 0 s' none 0
    rw [he'] at h2
    simp only [Except.ok.injEq, Prod.mk.injEq, Answer.mk.injEq, true_and] at h2
    exact h2
  | _ => exact hc.elim

/-- A native solver that obeys the protocol and is right given answers that the callbacks do give is right. -/
theorem Native.right_run (hs : q0.Sound) (hsm : q0.Small) (hv : EvalsTo q0 val) {T : Call F → Answer F → Prop}
    (hT : ∀ c a, ((c.IsJacPattern → q0.na = 0 ∨ q0.buf.j.rowInds = []) → (q0.oracle val).Truthful c a) → T c a)
    {claim : Int → List F → List F → List F → List F → Prop} {nat : Native F} (ho : nat.Obeys q0 p) (hr : nat.Right T claim) (h : CbAt q0 val p q)
    {q' : Minlp F} {code : Int} {x lamnu pi mu : List F} (hrun : nat.run q = .ok (q', code, x, lamnu, pi, mu)) : claim code x lamnu pi mu := by
  induction ho generalizing q with
  | done p status x' lamnu' pi' mu' =>
    cases hrun
    cases hr with
    | done h => exact h
  | values hc hnew _ ih =>
    obtain ⟨q1, a, h1, h2, h3⟩ := h.truthful hs hv hc hnew
    cases hr with
    | call hr =>
      simp only [Native.run, h1, R.ok_bind] at hrun
      exact ih a (hr a (hT _ _ fun _ => h3)) h2 hrun
  | pattern hc _ ih =>
    obtain ⟨a, h1, h3⟩ := h.toCbInv.truthful hs hsm hv hc
    cases hr with
    | call hr =>
      simp only [Native.run, h1, R.ok_bind] at hrun
      exact ih a (hr a (hT _ _ h3)) h hrun
  | @refused _ c next hc hl _ ih =>
    have h1 := C53_refuses_partial ((h.toCbInv.inconsistent _).2 hc) hl
    cases hr with
    | call hr =>
      simp only [Native.run, h1, R.ok_bind] at hrun
      refine ih _ (hr _ (hT _ _ fun _ => ?_)) h hrun
      cases c with
      | jacG n px newX m nele irow jcol values data => cases values <;> exact fun h => by cases h
      | h n px newX s m lambda newLambda nele irow jcol values data => cases values <;> exact fun h => by cases h
      | _ => exact fun h => by cases h

end

section
open Exact
variable {K : Type} [Field K] [LinearOrder K] [IsStrictOrderedRing K] [Trig K]

theorem foldl_total (l : List (Option K)) : l.foldl (· +. ·) zero = total l := by
  cases l with
  | nil => rfl
  | cons v vs =>
    have : (zero +. v : Option K) = v := by
      cases v with
      | none => rfl
      | some v => exact congrArg some (zero_add v)
    rw [List.foldl_cons, this]
    rfl

theorem between_zero {v : Option K} : Between (zero : Option K) v zero ↔ v = some 0 := by
  constructor
  · rintro ⟨z, t, z', h1, rfl, h3, h4, h5⟩
    cases h1; cases h3
    rw [le_antisymm h5 h4]
  · rintro rfl
    exact ⟨0, 0, 0, rfl, rfl, rfl, le_refl _, le_refl _⟩

theorem sub_zero_iff {a b : Option K} : (a -. b) = some 0 ↔ ∃ t, b = some t ∧ a = some t := by
  constructor
  · intro h
    cases a with
    | none => rw [sub_none_left] at h; cases h
    | some a =>
      cases b with
      | none => rw [sub_none_right] at h; cases h
      | some b =>
        rw [sub_some] at h
        injection h with h
        exact ⟨b, rfl, by rw [sub_eq_zero.1 h]⟩
  · rintro ⟨t, rfl, rfl⟩
    rw [sub_some, sub_self]

/-- The parts of the vector of constraint values, and the bounds of the constraints. -/
theorem oracle_rows {q : Minlp (Option K)} {val : List (Option K) → EvalBuf (Option K)} (hs : q.Sound) (hv : EvalsTo q val)
    {x : List (Option K)} (hx : x.length = q.nx) :
    ((q.oracle val).g x).length = q.na + q.nf ∧
    (∀ i b, q.b[i]? = some b → ((q.oracle val).g x)[i]? =
      some (total ((rowOf q.a.triplets i).map fun e => e.2 *. (x[e.1]?).getD none) -. b)) ∧
    (∀ i, ((q.oracle val).g x)[q.na + i]? = (val x).f[i]?) ∧
    ∀ i < q.na + q.nf, q.ipoptArgs.gL[i]? = some zero ∧ q.ipoptArgs.gU[i]? = some zero := by
  have hg : x.length = q.nx → ((q.oracle val).g x).length = q.na + q.nf := by
    intro hx
    simp only [Minlp.oracle, constraintValues, List.length_append, List.length_map, List.length_zipIdx, (hv.shape x hx).f]
    rfl
  have hrow : x.length = q.nx → ∀ i b, q.b[i]? = some b → ((q.oracle val).g x)[i]? =
      some (total ((rowOf q.a.triplets i).map fun e => e.2 *. (x[e.1]?).getD none) -. b) := by
    intro hx i b hb
    have hi : i < q.b.length := (List.getElem?_eq_some_iff.1 hb).1
    simp only [Minlp.oracle, constraintValues]
    rw [List.getElem?_append_left (by simpa using hi), List.getElem?_map, List.getElem?_zipIdx, hb]
    simp only [Option.map_some, Nat.zero_add, Option.some.injEq]
    congr 1
    have : (rowOf q.a.triplets i).map (fun e => e.2 *. (x[e.1]?).getD none) = (rowOf q.a.triplets i).map fun t => (x[t.1]?).getD zero *. t.2 := by
      refine List.map_congr_left fun t ht => ?_
      obtain ⟨e, he, rfl⟩ := List.mem_map.1 ht
      have := (hs.aIn e (List.mem_filter.1 he).1).2
      have hlt : e.2.1 < x.length := by rw [hx]; exact this
      rw [List.getElem?_eq_getElem hlt]
      simp only [Option.getD_some]
      cases e.2.2 <;> cases x[e.2.1] <;> simp [mul_comm]
    rw [this, ← foldl_total, List.foldl_map]
  have hnl : x.length = q.nx → ∀ i, ((q.oracle val).g x)[q.na + i]? = (val x).f[i]? := by
    intro hx i
    simp only [Minlp.oracle, constraintValues]
    rw [List.getElem?_append_right (by simp [Minlp.na])]
    simp [Minlp.na]
  have hz : ∀ i < q.na + q.nf, q.ipoptArgs.gL[i]? = some zero ∧ q.ipoptArgs.gU[i]? = some zero := by
    intro i hi
    simp only [Minlp.ipoptArgs]
    exact ⟨by rw [List.getElem?_replicate, if_pos hi], by rw [List.getElem?_replicate, if_pos hi]⟩
  exact ⟨hg hx, hrow hx, hnl hx, hz⟩

/-- The problem that Ipopt is given is the problem: the points that meet the constraints are those that are feasible, up to
integrality. -/
theorem meets_iff {q : Minlp (Option K)} {val : List (Option K) → EvalBuf (Option K)} (hs : q.Sound) (hv : EvalsTo q val)
    (hp : ∀ i : Nat, q.p[i]? ≠ some true) (x : List (Option K)) : q.ipoptArgs.Meets (q.oracle val) x ↔ q.Feasible x := by
  have hlen : (x.length : Int) = q.ipoptArgs.n ↔ x.length = q.nx := by
    simp only [Minlp.ipoptArgs, Nat.cast_inj]
  have hg : x.length = q.nx → _ := fun hx => (oracle_rows hs hv hx).1
  have hrow : x.length = q.nx → _ := fun hx => (oracle_rows hs hv hx).2.1
  have hnl : x.length = q.nx → _ := fun hx => (oracle_rows hs hv hx).2.2.1
  have hz : ∀ i < q.na + q.nf, q.ipoptArgs.gL[i]? = some zero ∧ q.ipoptArgs.gU[i]? = some zero := by
    intro i hi
    simp only [Minlp.ipoptArgs]
    exact ⟨by rw [List.getElem?_replicate, if_pos hi], by rw [List.getElem?_replicate, if_pos hi]⟩
  constructor
  · intro h
    have hx := hlen.1 h.len
    have hall : ∀ (i : Nat) v, ((q.oracle val).g x)[i]? = some v → v = some 0 := by
      intro i v hiv
      have hi := (List.getElem?_eq_some_iff.1 hiv).1
      obtain ⟨lo, v', up, h1, h2, h3, h4⟩ := h.rows i hi
      rw [hg hx] at hi
      rw [(hz i hi).1] at h1
      rw [(hz i hi).2] at h3
      cases h1; cases h3
      rw [hiv] at h2; cases h2
      exact between_zero.1 h4
    refine ⟨hx, ?_, ?_, ?_, fun i hi => absurd hi (hp i)⟩
    · intro i b hb
      exact sub_zero_iff.1 (hall i _ (hrow hx i b hb))
    · refine ⟨_, hv.eval [] q rfl x hx, fun v hvm => ?_⟩
      obtain ⟨i, hi, hiv⟩ := List.getElem_of_mem hvm
      refine hall (q.na + i) v ?_
      rw [hnl hx, List.getElem?_eq_getElem hi, hiv]
    · intro i v hiv
      obtain ⟨lo, v', up, h1, h2, h3, a, t, b, rfl, rfl, rfl, h4, h5⟩ := h.bounds i (List.getElem?_eq_some_iff.1 hiv).1
      rw [hiv] at h2; cases h2
      exact ⟨t, a, b, rfl, h1, h3, h4, h5⟩
  · intro h
    have hx := h.len
    refine ⟨hlen.2 hx, ?_, ?_⟩
    · intro i hi
      obtain ⟨t, lo, up, h1, h2, h3, h4, h5⟩ := h.bounds i x[i] (List.getElem?_eq_getElem hi)
      exact ⟨_, _, _, h2, List.getElem?_eq_getElem hi, h3, lo, t, up, rfl, h1, rfl, h4, h5⟩
    · intro i hi
      have hi' := hi
      rw [hg hx] at hi'
      refine ⟨_, _, _, (hz i hi').1, List.getElem?_eq_getElem hi, (hz i hi').2, between_zero.2 ?_⟩
      by_cases hin : i < q.na
      · have hb := List.getElem?_eq_getElem (l := q.b) (i := i) hin
        have := hrow hx i _ hb
        rw [List.getElem?_eq_getElem hi] at this
        injection this with this
        rw [this, sub_zero_iff]
        exact h.linear i _ hb
      · obtain ⟨k, rfl⟩ : ∃ k, i = q.na + k := ⟨i - q.na, by omega⟩
        obtain ⟨q', h1, h2⟩ := h.nonlinear
        rw [hv.eval [] q rfl x hx] at h1
        cases h1
        refine h2 _ ?_
        have := hnl hx k
        rw [List.getElem?_eq_getElem hi] at this
        exact List.mem_of_getElem? this.symm

/-- A problem of a model that Ipopt accepts has no integer variable. -/
theorem nlp_continuous {F : Type} [FloatOps F] {H : HashOrder} {W : World F} {n m : Nat} {sp : StdProb F} (hr : ReachableW H W n)
    (h : W.m.stdProblem H n = .ok (sp, m)) {q : Minlp F} (hq : sp.prob.IsNlp q) (i : Nat) : q.p[i]? ≠ some true := by
  obtain ⟨hp, k, comp, e, ps, cols, xes, ves, hf, -⟩ := hr.facts h
  have hall : (∀ x ∈ cols, x.isInteger = false) ∧ q.p = stdP cols := by
    unfold Problem.IsNlp at hq
    rw [hf.prob] at hq
    unfold stdProbOf at hq
    split at hq <;> split at hq <;> rename_i hc
    · rcases hq with hq | ⟨p, hq, rfl⟩
      · cases hq
      · cases hq; exact ⟨hc, rfl⟩
    · rcases hq with hq | ⟨p, hq, rfl⟩ <;> cases hq
    · rcases hq with hq | ⟨p, hq, rfl⟩
      · cases hq; exact ⟨hc, rfl⟩
      · cases hq
    · rcases hq with hq | ⟨p, hq, rfl⟩ <;> cases hq
  rw [hall.2, stdP, List.getElem?_map]
  intro hi
  cases hx : cols[i]? with
  | none => rw [hx] at hi; cases hi
  | some x =>
    rw [hx] at hi
    simp only [Option.map_some, Option.some.injEq] at hi
    rw [hall.1 x (List.mem_of_getElem? hx)] at hi
    cases hi

/-- What a right library has claimed when Ipopt returns an answer for the standard problem of a model. -/
theorem ipopt_claim {F : Type} [FloatOps F] {H : HashOrder} {W : World F} {n m : Nat} {sp : StdProb F} (hr : ReachableW H W n)
    (hsp : W.m.stdProblem H n = .ok (sp, m)) {ps : Params F} {lib : IpoptLib F} {status : Status} {sol : Sol F}
    (h : ipoptFn ps lib sp.prob = .ok (.ok (status, sol))) {T : Minlp F → (List F → EvalBuf F) → Call F → Answer F → Prop}
    {claim : Minlp F → (List F → EvalBuf F) → Int → List F → List F → List F → List F → Prop}
    (hT : ∀ q val, sp.prob.IsNlp q → EvalsTo q val → ∀ c a,
      ((c.IsJacPattern → q.na = 0 ∨ q.buf.j.rowInds = []) → (q.oracle val).Truthful c a) → T q val c a)
    (hlib : ∀ q val, sp.prob.IsNlp q → EvalsTo q val → lib.Obeys q.ipoptArgs q ∧ lib.Right (T q val) q.ipoptArgs (claim q val)) :
    ∃ q val code x lamnu pi mu, sp.prob.IsNlp q ∧ q ∈ sp.prob.views ∧ q.Sound ∧ EvalsTo q val ∧ claim q val code x lamnu pi mu ∧
      (status = .solved ↔ code = 0 ∨ code = 1) ∧ (status = .infeasible ↔ code = 2) ∧
      (x.length = q.nx → lamnu.length = q.na + q.nf → pi.length = q.nx → mu.length = q.nx →
        sol = ⟨x, (lamnu.take q.na).map FloatOps.neg, (lamnu.drop q.na).map FloatOps.neg, mu, pi⟩) ∧
      (x.length = q.nx → sol.x = x) := by
  unfold ipoptFn at h
  rw [R.bind_ok_iff] at h
  obtain ⟨⟨prob', live, r'⟩, h1, h⟩ := h
  cases h
  rcases ipoptSolve_inv h1 with ⟨q, run, hq, h2, h3, -, h5⟩ | ⟨-, -, h3⟩
  swap
  · cases h3
  rcases ipoptSolveNlp_inv h2 with ⟨-, level, sb, q', code, x', lamnu', pi', mu', sol', -, -, hsm1, hsm2, hx0, hrun, hsol, rfl⟩ | ⟨-, e, ⟨he, -⟩, -⟩
  swap
  · rw [he] at h5; cases h5
  simp only [Except.ok.injEq, Prod.mk.injEq] at h5
  obtain ⟨rfl, rfl⟩ := h5
  have hview : q ∈ sp.prob.views := by
    rcases hq with hq | ⟨p, hq, rfl⟩ <;> simp [hq, Problem.views]
  obtain ⟨hsound, ⟨val, hv, -⟩, hsmall⟩ := C51_model hr hsp hview
  obtain ⟨ho, hright⟩ := hlib q val hq hv
  have l0 : (q.x0.getD (List.replicate q.nx zero)).length = q.nx := by
    cases hq : q.x0 with
    | none => simp
    | some x0 => exact hx0 x0 hq
  have l0' : ((q.x0.getD (List.replicate q.nx zero)).length : Int) = q.ipoptArgs.n := by rw [l0]; rfl
  have hclaim := Native.right_run hsound (hsmall hsm1 hsm2) hv (hT q val hq hv) (ho _ _ _ _ _ _ l0') (hright _ _ _ _ _ _ l0') CbAt.start hrun
  obtain ⟨ops, hops⟩ := Native.run_ops hrun
  have hd := runProb_data hops
  have hnx : q'.nx = q.nx := by rw [Minlp.nx, hd.1]; rfl
  have hna : q'.na = q.na := by rw [Minlp.na, hd.2.1]; rfl
  have hnf := view_nf_run hr hsp hview hops
  refine ⟨q, val, code, x', lamnu', pi', mu', hq, hview, hsound, hv, hclaim, ?_, ?_, ?_, ?_⟩
  · unfold ipoptStatus
    by_cases c0 : code = 0
    · simp [c0]
    by_cases c1 : code = 1
    · simp [c1]
    by_cases c2 : code = 2 <;> simp [c0, c1, c2]
  · unfold ipoptStatus
    by_cases c0 : code = 0
    · simp [c0]
    by_cases c1 : code = 1
    · simp [c1]
    by_cases c2 : code = 2 <;> simp [c0, c1, c2]
  · intro l1 l2 l3 l4
    rw [overwrite_same (by rw [l0, l1]), overwrite_same (by simpa using l2), overwrite_same (by simpa using l3), overwrite_same (by simpa using l4),
      ipoptSol_ok (by rw [hnx, l1]) (by rw [hna, hnf, l2]) (by rw [hnx, l3]) (by rw [hnx, l4])] at hsol
    cases hsol
    rw [hna, hnf, List.take_of_length_le (l := lamnu'.drop q.na) (by rw [List.length_drop, l2]; omega)]
  · intro l1
    rw [(ipoptSol_inv hsol).1, overwrite_same (by rw [l0, l1])]

variable {H : HashOrder} {W : World (Option K)} {n m : Nat}

/-- C58, feasibility: a model is solved with Ipopt, by a native library that obeys the `new_x` protocol and whose claim that a point
satisfies the constraints of the problem given to it is right whenever the values it is told (objective, gradient, constraints, Jacobian, Hessian) are
true, whatever it is told about the pattern of the Jacobian. If `solve` succeeds and reports `Solved`, the final
primals satisfy all constraints of the model exactly. (Every constraint has a value somewhere.) -/
theorem C58_feasible (hr : ReachableApiW H W n) {ps : Params (Option K)} {lib : IpoptLib (Option K)} {mod' : Model (Option K)}
    (h : W.m.solve H (ipoptFn ps lib) n = .ok ((.ok (), mod'), m)) (hst : mod'.solverStatus = some .solved)
    (hd : ∀ c ∈ W.m.constraints, ∃ σ a b, c.lhs.evaluate σ = some a ∧ c.rhs.evaluate σ = some b)
    (hlib : ∀ sp m q val, W.m.stdProblem H n = .ok (sp, m) → sp.prob.IsNlp q → EvalsTo q val → lib.Obeys q.ipoptArgs q ∧
      lib.Right (fun c a => ¬ c.IsJacPattern → (q.oracle val).Truthful c a) q.ipoptArgs (q.ipoptArgs.ClaimMeets (q.oracle val))) :
    ∀ c ∈ mod'.constraints, c.violation (mapEnv mod'.finalPrimals) = some 0 ∧ c.Holds (mapEnv mod'.finalPrimals) := by
  refine (C33_feasible hr h hd fun sp status sol hs => ?_).1
  have hstat := solvedBy_unique h hs
  rw [hst] at hstat
  injection hstat with hstat
  obtain ⟨k, hsp, hsol⟩ := hs
  obtain ⟨q, val, code, x, lamnu, pi, mu, hq, hview, hsound, hv, hclaim, hc, -, -, hx⟩ := ipopt_claim hr.reachable hsp hsol
    (T := fun q val c a => ¬ c.IsJacPattern → (q.oracle val).Truthful c a) (claim := fun q val => q.ipoptArgs.ClaimMeets (q.oracle val))
    (fun q val _ _ c a h1 h2 => h1 fun h3 => absurd h3 h2) (fun q val hq hv => hlib sp k q val hsp hq hv)
  have hm := hclaim (hc.1 hstat.symm)
  have hf := (meets_iff hsound hv (nlp_continuous hr.reachable hsp hq) x).1 hm
  exact ⟨q, hview, by rw [hx hf.len]; exact hf⟩

/-- The answer of Ipopt, with truthful answers. -/
theorem ipopt_answer (hr : ReachableApiW H W n) {ps : Params (Option K)} {lib : IpoptLib (Option K)} {sp : StdProb (Option K)}
    {status : Status} {sol : Sol (Option K)} (hs : W.m.SolvedBy H n (ipoptFn ps lib) sp status sol)
    (honly : ∀ q, sp.prob.IsNlp q → q.na = 0 ∨ q.buf.j.rowInds = [])
    (hlib : ∀ q val, sp.prob.IsNlp q → EvalsTo q val → lib.Obeys q.ipoptArgs q ∧
      lib.Right (q.oracle val).Truthful q.ipoptArgs (q.ipoptArgs.Claim (q.oracle val))) :
    (status = .solved → ∃ q ∈ sp.prob.views, q.Minimiser sol.x) ∧
    (status = .infeasible → ∃ q ∈ sp.prob.views, ∀ xs, ¬ q.Feasible xs) := by
  obtain ⟨k, hsp, hsol⟩ := hs
  obtain ⟨q, val, code, x, lamnu, pi, mu, hq, hview, hsound, hv, hclaim, hc, hc2, -, hx⟩ := ipopt_claim hr.reachable hsp hsol
    (T := fun q val => (q.oracle val).Truthful) (claim := fun q val => q.ipoptArgs.Claim (q.oracle val))
    (fun q val hq _ c a h1 => h1 fun _ => honly q hq) hlib
  have hiff := meets_iff hsound hv (nlp_continuous hr.reachable hsp hq)
  constructor
  · intro hst
    obtain ⟨hm, v, hfx, hbest⟩ := hclaim.1 (hc.1 hst)
    have hf := (hiff x).1 hm
    have hobj : ∀ y : List (Option K), y.length = q.nx → q.objectiveAt y = some (val y).phi := by
      intro y hy
      unfold Minlp.objectiveAt
      rw [hv.eval [] q rfl y hy]
    refine ⟨q, hview, ?_⟩
    rw [hx hf.len]
    refine ⟨hf, v, ?_, fun y hy w hw => ?_⟩
    · rw [hobj x hf.len]
      exact congrArg some hfx
    · rw [hobj y hy.len] at hw
      injection hw with hw
      exact hbest y ((hiff y).2 hy) w hw
  · intro hst
    exact ⟨q, hview, fun xs hxs => hclaim.2 (hc2.1 hst) xs ((hiff xs).2 hxs)⟩

/-- C58, optimality: a model with linear or with nonlinear rows (not both) is solved with Ipopt, by a native library that obeys the protocol
and is right about the problem given to it whenever the answers it gets are truthful. If `solve` succeeds and reports `Solved`, the final primals satisfy
the constraints, and their objective value is at least as good as that of every assignment that satisfies the constraints, stays in the
box of ±1e8 and gives the objective a value. Missing: models with both kinds of rows, for which the pattern of the Jacobian is not
told truthfully (`C58_counterexample`). -/
theorem C58_optimal_partial (hr : ReachableApiW H W n) {ps : Params (Option K)} {lib : IpoptLib (Option K)} {mod' : Model (Option K)}
    (h : W.m.solve H (ipoptFn ps lib) n = .ok ((.ok (), mod'), m)) (hst : mod'.solverStatus = some .solved)
    (honly : ∀ sp m q, W.m.stdProblem H n = .ok (sp, m) → sp.prob.IsNlp q → q.na = 0 ∨ q.buf.j.rowInds = [])
    (hlib : ∀ sp m q val, W.m.stdProblem H n = .ok (sp, m) → sp.prob.IsNlp q → EvalsTo q val → lib.Obeys q.ipoptArgs q ∧
      lib.Right (q.oracle val).Truthful q.ipoptArgs (q.ipoptArgs.Claim (q.oracle val)))
    {σ : Env (Option K)} (hσ : W.m.Admissible σ) :
    (∀ c ∈ mod'.constraints, c.violation (mapEnv mod'.finalPrimals) = some 0 ∧ c.Holds (mapEnv mod'.finalPrimals)) ∧
    (∀ f w, mod'.objective = .minimize f → f.evaluate σ = some w → ∃ v, f.evaluate (mapEnv mod'.finalPrimals) = some v ∧ v ≤ w) ∧
    (∀ f w, mod'.objective = .maximize f → f.evaluate σ = some w → ∃ v, f.evaluate (mapEnv mod'.finalPrimals) = some v ∧ w ≤ v) := by
  have key : ∀ sp status sol, W.m.SolvedBy H n (ipoptFn ps lib) sp status sol → ∃ q ∈ sp.prob.views, q.Minimiser sol.x := by
    intro sp status sol hs
    have hstat := solvedBy_unique h hs
    rw [hst] at hstat
    injection hstat with hstat
    obtain ⟨k, hsp, hsol⟩ := id hs
    exact (ipopt_answer hr hs (fun q hq => honly sp k q hsp hq) (fun q val hq hv => hlib sp k q val hsp hq hv)).1 hstat.symm
  obtain ⟨h1, -, h3, h4⟩ := C34_optimal hr h key hσ
  exact ⟨h1, h3, h4⟩

/-- C58: under the same hypotheses, if `solve` succeeds and reports `Infeasible`, no assignment satisfies the constraints within the
box. -/
theorem C58_infeasible_partial (hr : ReachableApiW H W n) {ps : Params (Option K)} {lib : IpoptLib (Option K)} {mod' : Model (Option K)}
    (h : W.m.solve H (ipoptFn ps lib) n = .ok ((.ok (), mod'), m)) (hst : mod'.solverStatus = some .infeasible)
    (honly : ∀ sp m q, W.m.stdProblem H n = .ok (sp, m) → sp.prob.IsNlp q → q.na = 0 ∨ q.buf.j.rowInds = [])
    (hlib : ∀ sp m q val, W.m.stdProblem H n = .ok (sp, m) → sp.prob.IsNlp q → EvalsTo q val → lib.Obeys q.ipoptArgs q ∧
      lib.Right (q.oracle val).Truthful q.ipoptArgs (q.ipoptArgs.Claim (q.oracle val)))
    (σ : Env (Option K)) : ¬ W.m.Admissible σ := by
  obtain ⟨-, -, sp, k, hsp, hcase⟩ := C30_call h
  rcases hcase with ⟨e, he, -⟩ | ⟨status, sol, -, hs, hstat⟩
  · cases he
  · rw [hst] at hstat
    injection hstat with hstat
    obtain ⟨q, hq, hno⟩ := (ipopt_answer hr ⟨k, hsp, hs⟩ (fun q hq => honly sp k q hsp hq) (fun q val hq hv => hlib sp k q val hsp hq hv)).2
      hstat.symm
    exact C34_infeasible hr hsp hq hno σ

end

/-! ## Concrete cases -/

/-- `lo`, `v` and `up` are numbers in this order. -/
def orderedB (lo v up : Option Q) : Bool :=
  match lo, v, up with
  | some (some a), some (some t), some (some b) => decide (a ≤ t) && decide (t ≤ b)
  | _, _, _ => false

theorem orderedB_sound {lo v up : Option Q} (h : orderedB lo v up = true) :
    ∃ a t b, lo = some a ∧ v = some t ∧ up = some b ∧ Between a t b := by
  unfold orderedB at h
  split at h
  · simp only [Bool.and_eq_true, decide_eq_true_eq] at h
    exact ⟨_, _, _, rfl, rfl, rfl, _, _, _, rfl, rfl, rfl, h.1, h.2⟩
  · cases h

/-- A native library that only checks the initial point: it asks for the pattern of the Jacobian and the constraint values, and returns the
initial point with code 1 if it satisfies the constraints, with code -1 otherwise. -/
def checkLib : IpoptLib Q where
  create _ := true
  addInt _ _ := true
  addStr _ _ := true
  solve args _ _ x lamnu pi mu :=
    .call (.jacG args.n none 0 args.m args.nnzj true true false true) fun _ =>
    .call (.g args.n (some x) 1 args.m true true) fun a =>
    .done (if a.ok && (List.range x.length).all (fun i => orderedB args.xL[i]? x[i]? args.xU[i]?) &&
      (List.range a.values.length).all (fun i => orderedB args.gL[i]? a.values[i]? args.gU[i]?) then 1 else -1) x lamnu pi mu

/-- It is right about the constraints of every problem, whatever it is told about the pattern of the Jacobian, and obeys the protocol. -/
theorem checkLib_right (args : IpoptArgs Q) (o : Oracle Q) :
    checkLib.Right (fun c a => ¬ c.IsJacPattern → o.Truthful c a) args (args.ClaimMeets o) := by
  intro level sb x lamnu pi mu hx
  refine .call fun _ _ => .call fun a ha => .done ?_
  intro hcode
  have hcode : (a.ok && (List.range x.length).all (fun i => orderedB args.xL[i]? x[i]? args.xU[i]?) &&
      (List.range a.values.length).all (fun i => orderedB args.gL[i]? a.values[i]? args.gU[i]?)) = true := by
    by_contra hc
    rw [if_neg hc] at hcode
    rcases hcode with h | h <;> cases h
  simp only [Bool.and_eq_true, List.all_eq_true, List.mem_range] at hcode
  obtain ⟨⟨h1, h2⟩, h3⟩ := hcode
  have hv := ha (fun h => h) h1 x rfl
  rw [hv] at h3
  exact ⟨hx, fun i hi => orderedB_sound (h2 i hi), fun i hi => orderedB_sound (h3 i hi)⟩

theorem checkLib_obeys (q : Minlp Q) : checkLib.Obeys q.ipoptArgs q := by
  intro level sb x lamnu pi mu hx
  have hx : x.length = q.nx := by
    simp only [Minlp.ipoptArgs, Nat.cast_inj] at hx
    exact hx
  exact .pattern ⟨rfl, rfl, rfl, rfl, rfl, rfl, rfl⟩ fun _ => .values (x := x) ⟨rfl, rfl, hx, rfl, rfl, rfl⟩ (.inl rfl) fun _ => .done ..

/-- Non-vacuity of `C58_feasible`: the model `minimize x subject to x + y = 3, x * y = 2`, with linear and nonlinear rows, solved with this
library from the initial values (1, 2): `solve` succeeds with `Solved`, and all hypotheses are met. -/
def exMixed0 : List (Cmd Q) := exMixed ++ [.setInitPrimals [(0, some 1), (1, some 2)]]

example : ∃ mod' m, (worldOf exMixed0).m.solve HashOrder.listOrder (ipoptFn ipoptParams checkLib) (wcount exMixed0) = .ok ((.ok (), mod'), m) ∧
    mod'.solverStatus = some .solved ∧ mod'.finalPrimals.map Prod.snd = [some 1, some 2] ∧
    ReachableApiW HashOrder.listOrder (worldOf exMixed0) (wcount exMixed0) ∧
    (∀ c ∈ (worldOf exMixed0).m.constraints, ∃ σ a b, c.lhs.evaluate σ = some a ∧ c.rhs.evaluate σ = some b) ∧
    (∀ sp m q val, (worldOf exMixed0).m.stdProblem HashOrder.listOrder (wcount exMixed0) = .ok (sp, m) → sp.prob.IsNlp q → EvalsTo q val →
      checkLib.Obeys q.ipoptArgs q ∧
      checkLib.Right (fun c a => ¬ c.IsJacPattern → (q.oracle val).Truthful c a) q.ipoptArgs (q.ipoptArgs.ClaimMeets (q.oracle val))) := by
  have hsolve : ((worldOf exMixed0).m.solve HashOrder.listOrder (ipoptFn ipoptParams checkLib) (wcount exMixed0)).toOption.map
      (fun r => (r.1.1.toOption, r.1.2.solverStatus, r.1.2.finalPrimals.map Prod.snd)) = some (some (), some .solved, [some 1, some 2]) := by
    decide +kernel
  cases hs : (worldOf exMixed0).m.solve HashOrder.listOrder (ipoptFn ipoptParams checkLib) (wcount exMixed0) with
  | error e => rw [hs] at hsolve; simp [Except.toOption] at hsolve
  | ok r =>
    obtain ⟨⟨res, mod'⟩, m⟩ := r
    rw [hs] at hsolve
    simp only [Except.toOption, Option.map_some, Option.some.injEq, Prod.mk.injEq] at hsolve
    obtain ⟨h1, h2, h3⟩ := hsolve
    cases res with
    | error e => simp at h1
    | ok u =>
      refine ⟨mod', m, rfl, h2, h3, runsW_reachable (by decide +kernel) (by decide +kernel), ?_,
        fun sp m q val _ _ _ => ⟨checkLib_obeys q, checkLib_right _ _⟩⟩
      have : ∀ c ∈ (worldOf exMixed0).m.constraints, (c.lhs.evaluate (envOf [(0, 1), (1, 2)])).isSome ∧ (c.rhs.evaluate (envOf [(0, 1), (1, 2)])).isSome := by
        decide +kernel
      intro c hc
      obtain ⟨ha, hb⟩ := this c hc
      obtain ⟨a, ha⟩ := Option.isSome_iff_exists.1 ha
      obtain ⟨b, hb⟩ := Option.isSome_iff_exists.1 hb
      exact ⟨_, a, b, ha, hb⟩

/-- `minimize x * x subject to x >= 2`. -/
def exSq : List (Cmd Q) :=
  [.expr (.var "x" .continuous), .expr (.mul 0 0), .cmpNodeScalar .greaterEqual 0 (some 2) "low", .addConstraint 0, .minimize 1]

/-- A native library for this problem: it asks for the objective and its gradient at 2, and answers with this point. -/
def sqLib : IpoptLib Q where
  create _ := true
  addInt _ _ := true
  addStr _ _ := true
  solve args _ _ _ _ _ _ :=
    .call (.f args.n (some [some 2]) 1 true true) fun _ => .call (.gradF args.n (some [some 2]) 0 true true) fun _ =>
    .done 0 [some 2] [] [some 4] [some 0]

/-- Facts about the standard problem of a program that Ipopt accepts. -/
def nlpOf (cmds : List (Cmd Q)) : Option (Minlp Q) :=
  (resultOf ((worldOf cmds).m.stdProblem HashOrder.listOrder) (wcount cmds)).bind fun sp =>
    match sp.prob with
    | .nlp p => some p.base
    | _ => none

theorem nlpOf_eq {cmds : List (Cmd Q)} {sp : StdProb Q} {m : Nat} {q : Minlp Q}
    (h : (worldOf cmds).m.stdProblem HashOrder.listOrder (wcount cmds) = .ok (sp, m)) (hn : (nlpOf cmds).isSome = true) (hq : sp.prob.IsNlp q) :
    nlpOf cmds = some q ∧ sp.prob = .nlp ⟨q⟩ := by
  unfold nlpOf at hn ⊢
  simp only [resultOf, h, Option.bind_some] at hn ⊢
  cases hp : sp.prob with
  | nlp p =>
    rcases hq with hq | ⟨p', hq, rfl⟩
    · rw [hp] at hq; cases hq; exact ⟨rfl, rfl⟩
    · rw [hp] at hq; cases hq
  | _ => rw [hp] at hn; cases hn

/-- It is right about this problem. -/
theorem sqLib_right {sp : StdProb Q} {m : Nat} {q : Minlp Q} {val : List Q → EvalBuf Q}
    (hsp : (worldOf exSq).m.stdProblem HashOrder.listOrder (wcount exSq) = .ok (sp, m)) (hq : sp.prob.IsNlp q) (hv : EvalsTo q val) :
    sqLib.Obeys q.ipoptArgs q ∧ sqLib.Right (q.oracle val).Truthful q.ipoptArgs (q.ipoptArgs.Claim (q.oracle val)) := by
  have hr : ReachableApiW HashOrder.listOrder (worldOf exSq) (wcount exSq) := runsW_reachable (by decide +kernel) (by decide +kernel)
  obtain ⟨he, hp⟩ := nlpOf_eq hsp (by decide +kernel) hq
  have hview : q ∈ sp.prob.views := by simp [hp, Problem.views]
  have hdata : (nlpOf exSq).map (fun q => (q.nx, q.l)) = some (1, [some 2]) := by decide +kernel
  simp only [he, Option.map_some, Option.some.injEq, Prod.mk.injEq] at hdata
  obtain ⟨hnx, hl⟩ := hdata
  have hv2i : sp.var2index = [(.var 0 "x" .continuous, 0)] := by
    have : (resultOf ((worldOf exSq).m.stdProblem HashOrder.listOrder) (wcount exSq)).map (·.var2index) =
      some [(.var 0 "x" .continuous, 0)] := by decide +kernel
    simpa [resultOf, hsp] using this
  have hobj : ∃ i, (worldOf exSq).m.objective = .minimize (.mul i (.var 0 "x" .continuous) (.var 0 "x" .continuous)) := by
    refine ⟨1, ?_⟩
    have : (match (worldOf exSq).m.objective with
      | .minimize f => decide (f = .mul 1 (.var 0 "x" .continuous) (.var 0 "x" .continuous))
      | _ => false) = true := by decide +kernel
    revert this
    cases (worldOf exSq).m.objective <;> simp
  obtain ⟨i, hobj⟩ := hobj
  have hval : ∀ t : ℚ, (val [some t]).phi = some (t * t) := by
    intro t
    have h1 := C26_nonlinear hr hsp (.inl ⟨_, hp⟩) hview (ops := []) rfl (xs := [some t]) (by rw [hv2i]; rfl)
    unfold Minlp.objectiveAt at h1
    rw [hv.eval [] q rfl [some t] (by rw [hnx]; rfl)] at h1
    simp only [Option.some.injEq, Model.minimised, hobj, hv2i] at h1
    rw [h1]
    rfl
  constructor
  · intro level sb x lamnu pi mu hx
    exact .values (x := [some 2]) ⟨rfl, rfl, by rw [hnx]; rfl, rfl, rfl⟩ (.inl rfl) fun _ =>
      .values (x := [some 2]) ⟨rfl, rfl, by rw [hnx]; rfl, rfl, rfl⟩ (.inr rfl) fun _ => .done ..
  · intro level sb x lamnu pi mu hx
    refine .call fun _ _ => .call fun _ _ => .done ⟨fun _ => ?_, fun h => by cases h⟩
    obtain ⟨hsound, -, -⟩ := C51_model hr.reachable hsp hview
    have hiff := meets_iff hsound hv (nlp_continuous hr.reachable hsp hq)
    have hfe : q.Feasible [some 2] := by
      obtain ⟨sp', m', q', h1, h2, h3⟩ := viewOf_feas (cmds := exSq) (xs := [some 2]) (by decide +kernel)
      rw [hsp] at h1
      cases h1
      simp only [hp, Problem.views, List.mem_singleton] at h2
      rw [← h2]; exact h3
    refine ⟨(hiff _).2 hfe, 4, ?_, ?_⟩
    · exact (hval 2).trans (by norm_num)
    · intro y hy w hw
      have hyf := (hiff y).1 hy
      have hlen := hyf.len
      rw [hnx] at hlen
      match y, hlen with
      | [v], _ =>
        obtain ⟨t, lo, up, h1, h2, h3, h4, h5⟩ := hyf.bounds 0 v rfl
        subst h1
        rw [hl] at h2
        simp only [List.getElem?_cons_zero, Option.some.injEq] at h2
        subst h2
        have : (val [some t]).phi = some w := hw
        rw [hval t] at this
        simp only [Option.some.injEq] at this
        subst this
        nlinarith

/-- Non-vacuity of `C58_optimal_partial`: `minimize x * x subject to x >= 2` with this library. -/
example : ∃ mod' m, (worldOf exSq).m.solve HashOrder.listOrder (ipoptFn ipoptParams sqLib) (wcount exSq) = .ok ((.ok (), mod'), m) ∧
    mod'.solverStatus = some .solved ∧ mod'.finalPrimals.map Prod.snd = [some 2] ∧
    ReachableApiW HashOrder.listOrder (worldOf exSq) (wcount exSq) ∧
    (∀ sp m q, (worldOf exSq).m.stdProblem HashOrder.listOrder (wcount exSq) = .ok (sp, m) → sp.prob.IsNlp q → q.na = 0 ∨ q.buf.j.rowInds = []) ∧
    (∀ sp m q val, (worldOf exSq).m.stdProblem HashOrder.listOrder (wcount exSq) = .ok (sp, m) → sp.prob.IsNlp q → EvalsTo q val →
      sqLib.Obeys q.ipoptArgs q ∧ sqLib.Right (q.oracle val).Truthful q.ipoptArgs (q.ipoptArgs.Claim (q.oracle val))) := by
  have hsolve : ((worldOf exSq).m.solve HashOrder.listOrder (ipoptFn ipoptParams sqLib) (wcount exSq)).toOption.map
      (fun r => (r.1.1.toOption, r.1.2.solverStatus, r.1.2.finalPrimals.map Prod.snd)) = some (some (), some .solved, [some 2]) := by
    decide +kernel
  cases hs : (worldOf exSq).m.solve HashOrder.listOrder (ipoptFn ipoptParams sqLib) (wcount exSq) with
  | error e => rw [hs] at hsolve; simp [Except.toOption] at hsolve
  | ok r =>
    obtain ⟨⟨res, mod'⟩, m⟩ := r
    rw [hs] at hsolve
    simp only [Except.toOption, Option.map_some, Option.some.injEq, Prod.mk.injEq] at hsolve
    obtain ⟨h1, h2, h3⟩ := hsolve
    cases res with
    | error e => simp at h1
    | ok u =>
      refine ⟨mod', m, rfl, h2, h3, runsW_reachable (by decide +kernel) (by decide +kernel), ?_,
        fun sp m q val hsp hq hv => sqLib_right hsp hq hv⟩
      intro sp m q hsp hq
      obtain ⟨he, -⟩ := nlpOf_eq hsp (by decide +kernel) hq
      have hdata : (nlpOf exSq).map (fun q => q.na) = some 0 := by decide +kernel
      rw [he] at hdata
      exact .inl (by simpa using hdata)

/-- A native library that trusts the pattern of the Jacobian: told the pattern of `x + y = 3, x * y = 2` it gives up; told anything else it
answers with the point (3, 0). -/
def trustLib : IpoptLib Q where
  create _ := true
  addInt _ _ := true
  addStr _ _ := true
  solve args _ _ _ _ _ _ :=
    .call (.jacG args.n none 0 args.m args.nnzj true true false true) fun a =>
    .done (if a.ok && a.irow != [0, 0, 1, 1] then 0 else -1) [some 3, some 0] [some 0, some 0] [some 0, some 0] [some 0, some 0]

theorem trustLib_right {sp : StdProb Q} {m : Nat} {q : Minlp Q} {val : List Q → EvalBuf Q}
    (hsp : (worldOf exMixed).m.stdProblem HashOrder.listOrder (wcount exMixed) = .ok (sp, m)) (hq : sp.prob.IsNlp q) (hv : EvalsTo q val) :
    trustLib.Obeys q.ipoptArgs q ∧ trustLib.Right (q.oracle val).Truthful q.ipoptArgs (q.ipoptArgs.Claim (q.oracle val)) := by
  have hr : ReachableApiW HashOrder.listOrder (worldOf exMixed) (wcount exMixed) := runsW_reachable (by decide +kernel) (by decide +kernel)
  obtain ⟨he, hp⟩ := nlpOf_eq hsp (by decide +kernel) hq
  have hview : q ∈ sp.prob.views := by simp [hp, Problem.views]
  have hdata : (nlpOf exMixed).map (fun q => ((q.nx, q.na), q.a.rowInds, q.buf.j.rowInds)) = some ((2, 1), [0, 0], [0, 0]) := by decide +kernel
  simp only [he, Option.map_some, Option.some.injEq, Prod.mk.injEq] at hdata
  obtain ⟨⟨hnx, hna⟩, ha, hj⟩ := hdata
  obtain ⟨hsound, -, -⟩ := C51_model hr.reachable hsp hview
  constructor
  · intro level sb x lamnu pi mu hx
    exact .pattern ⟨rfl, rfl, rfl, rfl, rfl, rfl, rfl⟩ fun _ => .done ..
  · intro level sb x lamnu pi mu hx
    refine .call fun a hT => .done ?_
    have : (a.ok && a.irow != [0, 0, 1, 1]) = false := by
      by_cases hok : a.ok = true
      swap
      · simp [hok]
      have hx2 : ([some 0, some 0] : List Q).length = q.nx := by rw [hnx]; rfl
      have h1 := (hT hok [some 0, some 0] (by rw [hx2]; rfl)).1
      have hsh := (hv.shape _ hx2).j
      have hwf : (val [some 0, some 0]).j.WF := hsh.wf hsound.j
      have f1 : ((val [some 0, some 0]).j.triplets.map fun t => (((q.na + t.1 : Nat) : Int))) = q.buf.j.rowInds.map (fun i => ((q.na + i : Nat) : Int)) := by
        rw [← hsh.2.1, ← triplets_rows hwf, List.map_map]; rfl
      have f3 : (q.a.triplets.map fun t => ((t.1 : Nat) : Int)) = q.a.rowInds.map Int.ofNat := by
        rw [← triplets_rows hsound.aWF, List.map_map]; rfl
      simp only [Minlp.oracle, jacobianEntries, List.map_append, List.map_map, Function.comp_def, f1, f3, ha, hj] at h1
      rw [h1, hna]
      simp
    rw [this]
    refine ⟨fun h => ?_, fun h => ?_⟩
    · rcases h with h | h <;> simp at h
    · simp at h

/-- C58 is false for a model with both kinds of rows, `minimize x subject to x + y = 3, x * y = 2`: the library obeys the protocol and is right
whenever the answers are truthful, but `solve` reports `Solved` with the primals (3, 0), which violate the second constraint. -/
theorem C58_counterexample :
    ReachableApiW HashOrder.listOrder (worldOf exMixed) (wcount exMixed) ∧
    (∀ sp m q val, (worldOf exMixed).m.stdProblem HashOrder.listOrder (wcount exMixed) = .ok (sp, m) → sp.prob.IsNlp q → EvalsTo q val →
      trustLib.Obeys q.ipoptArgs q ∧ trustLib.Right (q.oracle val).Truthful q.ipoptArgs (q.ipoptArgs.Claim (q.oracle val))) ∧
    ((worldOf exMixed).m.solve HashOrder.listOrder (ipoptFn ipoptParams trustLib) (wcount exMixed)).toOption.map
      (fun r => (r.1.1.toOption, r.1.2.solverStatus, r.1.2.finalPrimals.map Prod.snd, r.1.2.constraints.map fun c =>
        c.violation (mapEnv r.1.2.finalPrimals))) = some (some (), some .solved, [some 3, some 0], [some 0, some 2]) :=
  ⟨runsW_reachable (by decide +kernel) (by decide +kernel), fun _ _ _ _ hsp hq hv => trustLib_right hsp hq hv, by decide +kernel⟩

end Verif
