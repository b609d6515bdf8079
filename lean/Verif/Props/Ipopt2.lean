import Verif.Spec.Report
import Verif.Proofs.Ipopt2
import Verif.Props.Ipopt

/-! # Properties C46, C51 - C55: the Ipopt interface, models and results -/

namespace Verif

set_option linter.unusedSectionVars false
set_option linter.unusedSimpArgs false

section
variable {F : Type} [FloatOps F] {H : HashOrder} {W : World F} {n m : Nat} {sp : StdProb F}

/-! ## C51, C52 for models -/

/-- C51, C52 for the standard problem of a model: it meets the hypotheses of `C51_answers`, `C51_pattern_partial`, `C52_hessian_partial` and
`C52_pattern`: the dimensions fit, evaluation is a function of the point (what `evaluate` leaves in the buffers, see C28, C29, C30 for
its meaning), and if the dimensions fit into an `i32`, so do all row and column numbers. -/
theorem C51_model (hr : ReachableW H W n) (h : W.m.stdProblem H n = .ok (sp, m)) {q : Minlp F} (hq : q ∈ sp.prob.views) :
    q.Sound ∧
    (∃ val, EvalsTo q val ∧ ∀ x, x.length = q.nx → ∃ q', q.evaluate x = .ok q' ∧ q'.buf = val x) ∧
    (q.nx < 2 ^ 31 → q.na + q.nf < 2 ^ 31 → q.Small) := by
  obtain ⟨hp, k, comp, e, ps, cols, xes, ves, hf, -⟩ := hr.facts h
  obtain ⟨h1, val, h2⟩ := hf.ipopt hq
  exact ⟨h1, ⟨val, h2, fun x hx => ⟨_, h2.eval [] q rfl x hx, rfl⟩⟩, hf.small hq⟩

/-- C51, C52 for problems that are built with the constructors: the same hypotheses are met if the matrices are well formed and
the entries of `A` inside it. -/
theorem C51_constructed {hphi a : Coo F} {b : List F} {j : Coo F} {h : List (Coo F)} {l u : List F} {x0 : Option (List F)} {fn : EvalFn F}
    {q : Nlp F} (h1 : hphi.WF) (h2 : a.WF) (h3 : ∀ t ∈ a.triplets, t.1 < a.rows ∧ t.2.1 < a.cols) (h5 : j.WF) (h6 : ∀ m ∈ h, m.WF)
    (hq : Nlp.new hphi a b j h l u x0 fn = .ok q) : q.base.Sound := by
  unfold Nlp.new at hq
  rw [R.bind_ok_iff] at hq
  obtain ⟨q', hq', hq⟩ := hq
  cases hq
  by_cases hd : DimsOk hphi a b j h l u (List.replicate a.cols false)
  · rw [Minlp.new_ok h6 hd] at hq'
    cases hq'
    obtain ⟨⟨d1, d2⟩, d3, d4, d5, d6, d7, d8, d9⟩ := hd
    exact Minlp.initial_sound h1 h2 h3 d3 h5 h6 d5
  · have := (C41_minlp_partial (hphi := hphi) (a := a) (b := b) (j := j) (h := h) (l := l) (u := u) (p := List.replicate a.cols false) (x0 := x0)
      (evalFn := fn) h6).1 hd
    rw [this] at hq'
    cases hq'

/-! ## C46 -/

/-- C46, Ipopt: a problem that is neither an `Lp` nor an `Nlp` gives an error; the problem is as before and no native problem is
created, whatever the library would do. -/
theorem C46_ipopt {ps : Params F} {lib : IpoptLib F} {prob : Problem F} (h : ∀ q, prob ≠ .lp q) (h' : ∀ q, prob ≠ .nlp q) :
    ipoptSolve ps lib prob = .ok (prob, 0, .error "problem type not supported") := by
  cases prob with
  | lp q => exact absurd rfl (h q)
  | nlp q => exact absurd rfl (h' q)
  | _ => rfl

/-! ## C54 -/

theorem ipoptSolve_inv {ps : Params F} {lib : IpoptLib F} {prob prob' : Problem F} {live : Nat} {r : Except String (Status × Sol F)}
    (h : ipoptSolve ps lib prob = .ok (prob', live, r)) :
    (∃ q run, prob.IsNlp q ∧ ipoptSolveNlp ps lib q = .ok run ∧ prob'.IsNlp run.prob ∧ live = run.live ∧ r = run.result) ∨
    (prob' = prob ∧ live = 0 ∧ r = .error "problem type not supported") := by
  cases prob with
  | nlp p =>
    simp only [ipoptSolve] at h
    rw [R.bind_ok_iff] at h
    obtain ⟨run, h1, h⟩ := h
    cases h
    exact .inl ⟨p.base, run, .inl rfl, h1, .inl rfl, rfl, rfl⟩
  | lp p =>
    simp only [ipoptSolve] at h
    rw [R.bind_ok_iff] at h
    obtain ⟨run, h1, h⟩ := h
    cases h
    exact .inl ⟨p.baseNlp.base, run, .inr ⟨p, rfl, rfl⟩, h1, .inr ⟨_, rfl, rfl⟩, rfl, rfl⟩
  | milp p => cases h; exact .inr ⟨rfl, rfl, rfl⟩
  | minlp p => cases h; exact .inr ⟨rfl, rfl, rfl⟩

theorem toI32_iff {n : Nat} {i : Int} : toI32 n = .ok i ↔ i = n ∧ n < 2 ^ 31 := by
  unfold toI32
  split
  · rename_i h
    simp only [Except.ok.injEq]
    exact ⟨fun h' => ⟨h'.symm, h⟩, fun h' => h'.1.symm⟩
  · rename_i h
    simp only [reduceCtorEq, false_iff]
    exact fun h' => h h'.2

/-- The arguments of `CreateIpoptProblem`: the dimensions and bounds of the problem, constraints between 0 and 0, the numbers of entries
of the Jacobian and the Hessian, C-style indices. -/
def Minlp.ipoptArgs (q : Minlp F) : IpoptArgs F :=
  ⟨q.nx, q.l, q.u, (q.na + q.nf : Nat), List.replicate (q.na + q.nf) zero, List.replicate (q.na + q.nf) zero, (q.a.nnz + q.buf.j.nnz : Nat),
    (q.buf.hphi.nnz + q.hcomb.nnz : Nat), 0⟩

theorem overwrite_same {old new : List F} (h : new.length = old.length) : overwrite old new = new := by
  unfold overwrite
  rw [← h, List.take_length, List.drop_eq_nil_of_le (by omega), List.append_nil]

theorem length_overwrite {old new : List F} : (overwrite old new).length = old.length := by
  unfold overwrite
  rw [List.length_append, List.length_take, List.length_drop]; omega

theorem neg_loop (src : List F) (off k : Nat) (h : off + k ≤ src.length) :
    foldR (fun (v : List F) i => do setIdx v i (FloatOps.neg (← idx src (off + i)))) (List.replicate k zero) (List.range k) =
      .ok (((src.drop off).take k).map FloatOps.neg) := by
  have key : ∀ j, j ≤ k → foldR (fun (v : List F) i => do setIdx v i (FloatOps.neg (← idx src (off + i)))) (List.replicate k zero) (List.range j) =
      .ok (((src.drop off).take j).map FloatOps.neg ++ List.replicate (k - j) zero) := by
    intro j
    induction j with
    | zero => intro _; simp [foldR]
    | succ j ih =>
      intro hj
      have hlt : off + j < src.length := by omega
      rw [List.range_succ, foldR_append, ih (by omega)]
      have e1 : k - j = (k - (j + 1)) + 1 := by omega
      have hl : (((src.drop off).take j).map FloatOps.neg).length = j := by simp; omega
      simp only [foldR, idx_of_lt hlt, R.ok_bind]
      rw [setIdx_of_lt (by rw [List.length_append, hl, List.length_replicate]; omega)]
      simp only
      congr 1
      rw [List.set_append_right _ _ (by omega), hl, Nat.sub_self, e1, List.replicate_succ, List.set_cons_zero, List.take_add_one]
      have : (src.drop off)[j]? = some src[off + j] := by rw [List.getElem?_drop, List.getElem?_eq_getElem hlt]
      simp [this]
  have := key k (Nat.le_refl _)
  simpa using this

/-- The solution. -/
theorem ipoptSol_ok {q : Minlp F} {x lamnu pi mu : List F} (h1 : x.length = q.nx) (h2 : q.na + q.nf ≤ lamnu.length) (h3 : pi.length = q.nx)
    (h4 : mu.length = q.nx) :
    ipoptSol q x lamnu pi mu =
      .ok ⟨x, (lamnu.take q.na).map FloatOps.neg, ((lamnu.drop q.na).take q.nf).map FloatOps.neg, mu, pi⟩ := by
  unfold ipoptSol
  have e1 : (x.length != q.nx) = false := by simp [h1]
  have e2 : (pi.length != q.nx || mu.length != q.nx) = false := by simp [h3, h4]
  have l1 := neg_loop lamnu 0 q.na (by omega)
  have l2 := neg_loop lamnu q.na q.nf h2
  simp only [Nat.zero_add, List.drop_zero] at l1
  simp only [e1, Bool.false_eq_true, if_false, l1, l2, R.ok_bind, e2]

theorem ipoptSol_inv {q : Minlp F} {x lamnu pi mu : List F} {sol : Sol F} (h : ipoptSol q x lamnu pi mu = .ok sol) :
    sol.x = x ∧ sol.mu = mu ∧ sol.pi = pi ∧ x.length = q.nx ∧ pi.length = q.nx ∧ mu.length = q.nx := by
  unfold ipoptSol at h
  split at h
  · cases h
  rename_i h1
  rw [R.bind_ok_iff] at h
  obtain ⟨lam, -, h⟩ := h
  rw [R.bind_ok_iff] at h
  obtain ⟨nu, -, h⟩ := h
  split at h
  · cases h
  rename_i h2
  cases h
  have h1 : x.length = q.nx := by simpa using h1
  have h2 : pi.length = q.nx ∧ mu.length = q.nx := by
    simpa using h2
  exact ⟨rfl, rfl, rfl, h1, h2.1, h2.2⟩

/-- What `solve` does when it returns a solution. -/
theorem ipoptSolveNlp_inv {ps : Params F} {lib : IpoptLib F} {q : Minlp F} {run : IpoptRun F} (h : ipoptSolveNlp ps lib q = .ok run) :
    (run.live = 0 ∧ ∃ level sb q' status x' lamnu' pi' mu' sol, getParam ps "print_level" = some (.int level) ∧
      getParam ps "sb" = some (.str sb) ∧ q.nx < 2 ^ 31 ∧ q.na + q.nf < 2 ^ 31 ∧ (∀ x0, q.x0 = some x0 → x0.length = q.nx) ∧
      (lib.solve q.ipoptArgs level sb (q.x0.getD (List.replicate q.nx zero)) (List.replicate (q.na + q.nf) zero) (List.replicate q.nx zero)
        (List.replicate q.nx zero)).run q = .ok (q', status, x', lamnu', pi', mu') ∧
      ipoptSol q' (overwrite (q.x0.getD (List.replicate q.nx zero)) x') (overwrite (List.replicate (q.na + q.nf) zero) lamnu')
        (overwrite (List.replicate q.nx zero) pi') (overwrite (List.replicate q.nx zero) mu') = .ok sol ∧
      run = ⟨q', 0, .ok (ipoptStatus status, sol)⟩) ∨
    (run.prob = q ∧ ∃ e, (run.result = .error e ∧ e ≠ "problem type not supported") ∧ (run.live = 0 ∧ lib.create q.ipoptArgs = false ∨
      run.live = 1 ∧ lib.create q.ipoptArgs = true ∧ ((∀ i, getParam ps "print_level" ≠ some (.int i)) ∨ (∃ k v, lib.addInt k v = false) ∨
        (∀ s, getParam ps "sb" ≠ some (.str s)) ∨ ∃ k v, lib.addStr k v = false))) := by
  unfold ipoptSolveNlp at h
  rw [R.bind_ok_iff] at h
  obtain ⟨n, hn, h⟩ := h
  rw [R.bind_ok_iff] at h
  obtain ⟨m, hm, h⟩ := h
  dsimp only at h
  rw [R.bind_ok_iff] at h
  obtain ⟨nj, hnj, h⟩ := h
  rw [R.bind_ok_iff] at h
  obtain ⟨nh, hnh, h⟩ := h
  obtain ⟨rfl, hn'⟩ := toI32_iff.1 hn
  obtain ⟨rfl, hm'⟩ := toI32_iff.1 hm
  obtain ⟨rfl, -⟩ := toI32_iff.1 hnj
  obtain ⟨rfl, -⟩ := toI32_iff.1 hnh
  change (if (!lib.create q.ipoptArgs) = true then _ else _) = _ at h
  split at h
  · rename_i hc
    cases h
    exact .inr ⟨rfl, _, ⟨rfl, by simp⟩, .inl ⟨rfl, by simpa using hc⟩⟩
  rename_i hc
  have hc : lib.create q.ipoptArgs = true := by simpa using hc
  split at h
  · rename_i level hl
    split at h
    · cases h
      rename_i ha
      exact .inr ⟨rfl, _, ⟨rfl, by simp⟩, .inr ⟨rfl, hc, .inr (.inl ⟨_, _, by simpa using ha⟩)⟩⟩
    split at h
    · rename_i sb hsb
      split at h
      · cases h
      split at h
      · cases h
        rename_i ha
        exact .inr ⟨rfl, _, ⟨rfl, by simp⟩, .inr ⟨rfl, hc, .inr (.inr (.inr ⟨_, _, by simpa using ha⟩))⟩⟩
      have hx : ∃ x, x = q.x0.getD (List.replicate q.nx zero) ∧ (∀ x0, q.x0 = some x0 → x0.length = q.nx) ∧ (do
          let (q2, status, x', lamnu', pi', mu') ← (lib.solve q.ipoptArgs level sb x (List.replicate (q.na + q.nf) zero) (List.replicate q.nx zero)
            (List.replicate q.nx zero)).run q
          let sol ← ipoptSol q2 (overwrite x x') (overwrite (List.replicate (q.na + q.nf) zero) lamnu') (overwrite (List.replicate q.nx zero) pi')
            (overwrite (List.replicate q.nx zero) mu')
          .ok (⟨q2, 0, .ok (ipoptStatus status, sol)⟩ : IpoptRun F)) = .ok run := by
        cases hx0 : q.x0 with
        | none =>
          rw [hx0] at h
          exact ⟨_, rfl, fun _ h' => (by cases h'), h⟩
        | some x0 =>
          rw [hx0] at h
          dsimp only at h
          split at h
          · rename_i hl0
            exact ⟨x0, rfl, fun x hx => (by cases hx; exact beq_iff_eq.1 hl0), h⟩
          · cases h
      clear h
      obtain ⟨x, rfl, hx0, h⟩ := hx
      rw [R.bind_ok_iff] at h
      obtain ⟨⟨q', status, x', lamnu', pi', mu'⟩, hrun, h⟩ := h
      dsimp only at h
      rw [R.bind_ok_iff] at h
      obtain ⟨sol, hsol, h⟩ := h
      cases h
      exact .inl ⟨rfl, level, sb, q', status, x', lamnu', pi', mu', sol, hl, hsb, hn', hm', hx0, hrun, hsol, rfl⟩
    · cases h
      rename_i ha
      exact .inr ⟨rfl, _, ⟨rfl, by simp⟩, .inr ⟨rfl, hc, .inr (.inr (.inl ha))⟩⟩
  · cases h
    rename_i ha
    exact .inr ⟨rfl, _, ⟨rfl, by simp⟩, .inr ⟨rfl, hc, .inl ha⟩⟩

/-- C46, Ipopt: a problem of class `Lp` or `Nlp` is not refused for its class, whatever the library does. -/
theorem C46_ipopt_accepts {ps : Params F} {lib : IpoptLib F} {prob prob' : Problem F} {live : Nat} {r : Except String (Status × Sol F)}
    (hsup : (∃ q, prob = .lp q) ∨ ∃ q, prob = .nlp q) (h : ipoptSolve ps lib prob = .ok (prob', live, r)) :
    r ≠ .error "problem type not supported" := by
  have key : ∀ q run, ipoptSolveNlp ps lib q = .ok run → run.result ≠ .error "problem type not supported" := by
    intro q run hrun
    rcases ipoptSolveNlp_inv hrun with ⟨-, _, _, _, _, _, _, _, _, _, -, -, -, -, -, -, -, rfl⟩ | ⟨-, e, ⟨he, hne⟩, -⟩
    · simp
    · rw [he]
      intro h
      injection h with h
      exact hne h
  rcases hsup with ⟨q, rfl⟩ | ⟨q, rfl⟩ <;>
  · simp only [ipoptSolve] at h
    rw [R.bind_ok_iff] at h
    obtain ⟨run, h1, h⟩ := h
    cases h
    exact key _ _ h1

theorem neg_loop_len {src v : List F} {off k : Nat}
    (h : foldR (fun (v : List F) i => do setIdx v i (FloatOps.neg (← idx src (off + i)))) (List.replicate k zero) (List.range k) = .ok v) :
    v.length = k := by
  have key : ∀ (is : List Nat) (v0 v : List F), foldR (fun (v : List F) i => do setIdx v i (FloatOps.neg (← idx src (off + i)))) v0 is = .ok v →
      v.length = v0.length := by
    intro is
    induction is with
    | nil => intro v0 v h; cases h; rfl
    | cons i is ih =>
      intro v0 v h
      rw [foldR_cons_ok] at h
      obtain ⟨v1, h1, h⟩ := h
      rw [R.bind_ok_iff] at h1
      obtain ⟨t, -, h1⟩ := h1
      rw [ih _ _ h]
      unfold setIdx at h1
      split at h1
      · cases h1; simp
      · cases h1
  rw [key _ _ _ h, List.length_replicate]

theorem ipoptSol_dims {q : Minlp F} {x lamnu pi mu : List F} {sol : Sol F} (h : ipoptSol q x lamnu pi mu = .ok sol) : sol.Fits q := by
  unfold ipoptSol at h
  split at h
  · cases h
  rename_i h1
  rw [R.bind_ok_iff] at h
  obtain ⟨lam, hl, h⟩ := h
  rw [R.bind_ok_iff] at h
  obtain ⟨nu, hn, h⟩ := h
  split at h
  · cases h
  rename_i h2
  cases h
  have h1 : x.length = q.nx := by simpa using h1
  have h2 : pi.length = q.nx ∧ mu.length = q.nx := by simpa using h2
  refine ⟨h1, ?_, neg_loop_len hn, h2.2, h2.1⟩
  have := neg_loop_len (off := 0) (src := lamnu) (v := lam) (k := q.na) (by simpa only [Nat.zero_add] using hl)
  exact this

/-- C54: when `solve` returns a solution, then for the problem `q` that Ipopt is given, the native solver was run from the initial point of the
problem (zeros if there is none) on the dimensions and bounds of `q`; it left the problem `q'`, returned a code and wrote numbers
into the four arrays. The status is `Solved` for the codes 0 and 1, `Infeasible` for 2, `Error` otherwise; the solution is made of
the numbers of the native solver: the point, minus the first `na` multipliers, minus the remaining `nf` ones, the
multipliers of upper and lower bounds. Its vectors have the dimensions of the problem. -/
theorem C54_result {ps : Params F} {lib : IpoptLib F} {prob prob' : Problem F} {live : Nat} {status : Status} {sol : Sol F}
    (h : ipoptSolve ps lib prob = .ok (prob', live, .ok (status, sol))) :
    ∃ q q' code x lamnu pi mu level sb, prob.IsNlp q ∧ prob'.IsNlp q' ∧
      (lib.solve q.ipoptArgs level sb (q.x0.getD (List.replicate q.nx zero)) (List.replicate (q.na + q.nf) zero) (List.replicate q.nx zero)
        (List.replicate q.nx zero)).run q = .ok (q', code, x, lamnu, pi, mu) ∧
      (status = .solved ↔ code = 0 ∨ code = 1) ∧ (status = .infeasible ↔ code = 2) ∧
      (status = .error ↔ code ≠ 0 ∧ code ≠ 1 ∧ code ≠ 2) ∧
      sol.Fits q' ∧ q'.nx = q.nx ∧ q'.na = q.na ∧
      (q'.nf = q.nf → x.length = q.nx → lamnu.length = q.na + q.nf → pi.length = q.nx → mu.length = q.nx →
        sol = ⟨x, (lamnu.take q.na).map FloatOps.neg, (lamnu.drop q.na).map FloatOps.neg, mu, pi⟩) := by
  rcases ipoptSolve_inv h with ⟨q, run, h1, h2, h3, -, h5⟩ | ⟨-, -, h3⟩
  swap
  · cases h3
  rcases ipoptSolveNlp_inv h2 with ⟨-, level, sb, q', code, x', lamnu', pi', mu', sol', -, -, -, -, hx0, hrun, hsol, rfl⟩ | ⟨-, e, ⟨he, -⟩, -⟩
  swap
  · rw [he] at h5; cases h5
  simp only [Except.ok.injEq, Prod.mk.injEq] at h5
  obtain ⟨rfl, rfl⟩ := h5
  obtain ⟨ops, hops⟩ := Native.run_ops hrun
  have hd := runProb_data hops
  have hnx : q'.nx = q.nx := by rw [Minlp.nx, hd.1]; rfl
  have hna : q'.na = q.na := by rw [Minlp.na, hd.2.1]; rfl
  refine ⟨q, q', code, x', lamnu', pi', mu', level, sb, h1, h3, hrun, ?_, ?_, ?_, ipoptSol_dims hsol, hnx, hna, ?_⟩
  · unfold ipoptStatus
    by_cases c0 : code = 0
    · simp [c0]
    by_cases c1 : code = 1
    · simp [c1]
    by_cases c2 : code = 2 <;> simp [c0, c1, c2]
  · unfold ipoptStatus
    by_cases c0 : code = 0
    · simp [c0]
    by_cases c1 : code = 1
    · simp [c1]
    by_cases c2 : code = 2 <;> simp [c0, c1, c2]
  · unfold ipoptStatus
    by_cases c0 : code = 0
    · simp [c0]
    by_cases c1 : code = 1
    · simp [c1]
    by_cases c2 : code = 2 <;> simp [c0, c1, c2]
  · intro hnf l1 l2 l3 l4
    have l0 : (q.x0.getD (List.replicate q.nx zero)).length = q.nx := by
      cases hq : q.x0 with
      | none => simp
      | some x0 => exact hx0 x0 hq
    rw [overwrite_same (by rw [l0, l1]), overwrite_same (by simpa using l2), overwrite_same (by simpa using l3), overwrite_same (by simpa using l4),
      ipoptSol_ok (by rw [hnx, l1]) (by rw [hna, hnf, l2]) (by rw [hnx, l3]) (by rw [hnx, l4])] at hsol
    cases hsol
    rw [hna, hnf, List.take_of_length_le (l := lamnu'.drop q.na) (by rw [List.length_drop, l2]; omega)]

/-- C54, release: with parameters set by `set_param` (whatever calls) and a library that accepts the two options, no native problem
is left when `solve` returns. Missing: a library that refuses an option value (`C54_counterexample`) and parameters changed behind the
interface (`C54_counterexample_params`). -/
theorem C54_released_partial {calls : List (String × SolverParam F)} {lib : IpoptLib F} {prob prob' : Problem F} {live : Nat}
    {r : Except String (Status × Sol F)} (hint : ∀ k v, lib.addInt k v = true) (hstr : ∀ k v, lib.addStr k v = true)
    (h : ipoptSolve (setParams ipoptParams calls) lib prob = .ok (prob', live, r)) : live = 0 := by
  rcases ipoptSolve_inv h with ⟨q, run, h1, h2, h3, rfl, h5⟩ | ⟨-, h2, -⟩
  swap
  · exact h2
  obtain ⟨⟨i, hi⟩, ⟨s, hs⟩, -⟩ := (C45_solvers (F := F) calls).2.2
  rcases ipoptSolveNlp_inv h2 with ⟨h, -⟩ | ⟨-, e, ⟨he, -⟩, ⟨h, -⟩ | ⟨hl, hc, h | ⟨k, v, h⟩ | h | ⟨k, v, h⟩⟩⟩
  · exact h
  · exact h
  · exact absurd hi (h i)
  · rw [hint] at h; cases h
  · exact absurd hs (h s)
  · rw [hstr] at h; cases h

/-- C54 in any case: when a solution is returned, the native problem is released. -/
theorem C54_solved_released {ps : Params F} {lib : IpoptLib F} {prob prob' : Problem F} {live : Nat} {status : Status} {sol : Sol F}
    (h : ipoptSolve ps lib prob = .ok (prob', live, .ok (status, sol))) : live = 0 := by
  rcases ipoptSolve_inv h with ⟨q, run, -, h2, -, rfl, h5⟩ | ⟨-, -, h3⟩
  swap
  · cases h3
  rcases ipoptSolveNlp_inv h2 with ⟨h, -⟩ | ⟨-, e, ⟨he, -⟩, -⟩
  · exact h
  · rw [he] at h5; cases h5

/-- C54 is false if the library refuses the value of an option: `solve` returns an error and the native problem is never released. Here the
library refuses the value 100 of `print_level` (Ipopt accepts 0 to 12), which `set_param` accepts. -/
theorem C54_counterexample {lib : IpoptLib F} {q : Nlp F} (h1 : q.base.nx < 2 ^ 31) (h2 : q.base.na + q.base.nf < 2 ^ 31)
    (h3 : q.base.a.nnz + q.base.buf.j.nnz < 2 ^ 31) (h4 : q.base.buf.hphi.nnz + q.base.hcomb.nnz < 2 ^ 31)
    (hc : lib.create q.base.ipoptArgs = true) (hint : lib.addInt "print_level" 100 = false) :
    setParam (F := F) ipoptParams "print_level" (.int 100) = (setParams ipoptParams [("print_level", .int 100)], .ok ()) ∧
    ipoptSolve (setParams ipoptParams [("print_level", .int 100)]) lib (.nlp q) =
      .ok (.nlp q, 1, .error "unable to set parameter print_level") := by
  have hp : getParam (setParams (F := F) ipoptParams [("print_level", .int 100)]) "print_level" = some (.int 100) := rfl
  refine ⟨rfl, ?_⟩
  have hc' := hc
  unfold Minlp.ipoptArgs at hc'
  unfold ipoptSolve ipoptSolveNlp
  simp only [toI32_iff.2 ⟨rfl, h1⟩, toI32_iff.2 ⟨rfl, h2⟩, toI32_iff.2 ⟨rfl, h3⟩, toI32_iff.2 ⟨rfl, h4⟩, R.ok_bind, hc', hp, hint, Bool.not_true,
    Bool.not_false, Bool.false_eq_true, if_false, if_true]

/-- The same for parameters that are changed behind the interface (`get_params_mut`): no integer `print_level`. -/
theorem C54_counterexample_params {ps : Params F} {lib : IpoptLib F} {q : Nlp F} (h1 : q.base.nx < 2 ^ 31) (h2 : q.base.na + q.base.nf < 2 ^ 31)
    (h3 : q.base.a.nnz + q.base.buf.j.nnz < 2 ^ 31) (h4 : q.base.buf.hphi.nnz + q.base.hcomb.nnz < 2 ^ 31)
    (hc : lib.create q.base.ipoptArgs = true) (hp : getParam ps "print_level" = none) :
    ipoptSolve ps lib (.nlp q) = .ok (.nlp q, 1, .error "unable to get parameter print_level") := by
  have hc' := hc
  unfold Minlp.ipoptArgs at hc'
  unfold ipoptSolve ipoptSolveNlp
  simp only [toI32_iff.2 ⟨rfl, h1⟩, toI32_iff.2 ⟨rfl, h2⟩, toI32_iff.2 ⟨rfl, h3⟩, toI32_iff.2 ⟨rfl, h4⟩, R.ok_bind, hc', hp, Bool.not_true,
    Bool.not_false, Bool.false_eq_true, if_false, if_true]

/-! ## C55 -/

/-- Ipopt as a solver of a model. -/
def ipoptFn (ps : Params F) (lib : IpoptLib F) : SolverFn F := fun prob => do .ok (← ipoptSolve ps lib prob).2.2

theorem view_nf_run (hr : ReachableW H W n) (h : W.m.stdProblem H n = .ok (sp, m)) {q q' : Minlp F} (hq : q ∈ sp.prob.views)
    {ops : List (ProbOp F)} (hops : runProb q ops = .ok q') : q'.nf = q.nf := by
  obtain ⟨hp, k, comp, e, ps, cols, xes, ves, hf, -⟩ := hr.facts h
  rcases hf.views_eq hq with ⟨hnf, rfl⟩ | rfl
  · have := (linear_keep rfl hops).1
    rw [Minlp.nf, this]; rfl
  · have hi := (StdInv.initial (cols := cols) (comp := comp) (init := xes) (ves := ves)).run hf.cok hf.cmpOk hf.vesP hops
    rw [Minlp.nf, hi.buf.f]
    simp [stdMinlp, Minlp.initial, Minlp.nf, stdJ, zeroMat, Coo.rows]

/-- C55 for Ipopt: a model whose standard problem is an `Lp` or an `Nlp`: for every behaviour of the native library for which the solver
itself returns, `solve` of the model returns; no index of the model is out of range for the solution. -/
theorem C55_ipopt (hr : ReachableW H W n) (h : W.m.stdProblem H n = .ok (sp, m)) {ps : Params F} {lib : IpoptLib F}
    {r : Except String (Status × Sol F)} (hs : ipoptFn ps lib sp.prob = .ok r) :
    ∃ res mod' m', W.m.solve H (ipoptFn ps lib) n = .ok ((res, mod'), m') ∧
      (∀ e, r = .error e → res = .error e) ∧ (∀ status sol, r = .ok (status, sol) → res = .ok () ∧ mod'.solverStatus = some status) := by
  refine C55_fits hr h hs ?_
  rintro status sol rfl
  unfold ipoptFn at hs
  rw [R.bind_ok_iff] at hs
  obtain ⟨⟨prob', live, r'⟩, h1, hs⟩ := hs
  cases hs
  obtain ⟨q, q', code, x, lamnu, pi, mu, level, sb, hq, -, hrun, -, -, -, hfit, hnx, hna, -⟩ := C54_result h1
  have hv : q ∈ sp.prob.views := by
    rcases hq with hq | ⟨p, hq, rfl⟩ <;> simp [hq, Problem.views]
  obtain ⟨ops, hops⟩ := Native.run_ops hrun
  have hnf := view_nf_run hr h hv hops
  refine ⟨q, hv, ?_⟩
  unfold Sol.Fits at hfit ⊢
  rw [← hnx, ← hna, ← hnf]
  exact hfit

/-- C51 - C55 together: a native solver that obeys the protocol does not panic on a sound problem whose evaluation is a function of the
point, and leaves its data and dimensions. -/
theorem Native.obeys_total {q0 q : Minlp F} {val : List F → EvalBuf F} (hs : q0.Sound) (hsm : q0.Small) (hv : EvalsTo q0 val)
    {nat : Native F} {p : Option (List F)} (ho : nat.Obeys q0 p) (h : CbAt q0 val p q) :
    ∃ q' o, nat.run q = .ok (q', o) ∧ CbInv q0 q' := by
  induction ho generalizing q with
  | done p status x lamnu pi mu => exact ⟨q, _, rfl, h.toCbInv⟩
  | values hc hnew _ ih =>
    obtain ⟨q1, a, h1, h2⟩ := h.values hs hv hc hnew
    obtain ⟨q', o, h3, h4⟩ := ih a h2
    exact ⟨q', o, by simp [Native.run, h1, h3], h4⟩
  | pattern hc _ ih =>
    obtain ⟨a, h1⟩ := h.toCbInv.pattern hs hsm hc
    obtain ⟨q', o, h3, h4⟩ := ih a h
    exact ⟨q', o, by simp [Native.run, h1, h3], h4⟩
  | refused hc hl _ ih =>
    have h1 := C53_refuses_partial ((h.toCbInv.inconsistent _).2 hc) hl
    obtain ⟨q', o, h3, h4⟩ := ih ⟨false, [], [], []⟩ h
    exact ⟨q', o, by simp [Native.run, h1, h3], h4⟩

/-- C54, totality: a sound `Nlp` whose evaluation is a function of the point and whose dimensions fit into an `i32`, with an initial point
of the right length (or none), parameters set by `set_param` with no NUL character in `sb`, and a native solver that
obeys the protocol: `solve` returns. -/
theorem C54_returns {q : Nlp F} {val : List F → EvalBuf F} (hs : q.base.Sound) (hsm : q.base.Small) (hv : EvalsTo q.base val)
    (h1 : q.base.nx < 2 ^ 31) (h2 : q.base.na + q.base.nf < 2 ^ 31) (h3 : q.base.a.nnz + q.base.buf.j.nnz < 2 ^ 31)
    (h4 : q.base.buf.hphi.nnz + q.base.hcomb.nnz < 2 ^ 31) (hx0 : ∀ x0, q.base.x0 = some x0 → x0.length = q.base.nx)
    {calls : List (String × SolverParam F)} {lib : IpoptLib F}
    (hnul : ∀ sb, getParam (setParams ipoptParams calls) "sb" = some (.str sb) → Char.ofNat 0 ∉ sb.toList)
    (ho : ∀ args level sb x lamnu pi mu, (lib.solve args level sb x lamnu pi mu).Obeys q.base none) :
    ∃ q' live r, ipoptSolve (setParams ipoptParams calls) lib (.nlp q) = .ok (.nlp q', live, r) := by
  obtain ⟨⟨i, hi⟩, ⟨sb, hsb⟩, -⟩ := (C45_solvers (F := F) calls).2.2
  have hn : sb.toList.contains (Char.ofNat 0) = false := by
    rw [Bool.eq_false_iff]
    intro h
    exact hnul sb hsb (by simpa using h)
  suffices ∃ run, ipoptSolveNlp (setParams ipoptParams calls) lib q.base = .ok run by
    obtain ⟨run, hr⟩ := this
    exact ⟨⟨run.prob⟩, run.live, run.result, by simp [ipoptSolve, hr]⟩
  unfold ipoptSolveNlp
  simp only [toI32_iff.2 ⟨rfl, h1⟩, toI32_iff.2 ⟨rfl, h2⟩, toI32_iff.2 ⟨rfl, h3⟩, toI32_iff.2 ⟨rfl, h4⟩, R.ok_bind, hi, hsb, hn, Bool.false_eq_true,
    if_false]
  split
  · exact ⟨_, rfl⟩
  split
  · exact ⟨_, rfl⟩
  split
  · exact ⟨_, rfl⟩
  have key : ∀ x : List F, x.length = q.base.nx → ∃ run : IpoptRun F, (do
      let (q2, status, x', lamnu', pi', mu') ← (lib.solve q.base.ipoptArgs i sb x (List.replicate (q.base.na + q.base.nf) zero)
        (List.replicate q.base.nx zero) (List.replicate q.base.nx zero)).run q.base
      let sol ← ipoptSol q2 (overwrite x x') (overwrite (List.replicate (q.base.na + q.base.nf) zero) lamnu')
        (overwrite (List.replicate q.base.nx zero) pi') (overwrite (List.replicate q.base.nx zero) mu')
      .ok (⟨q2, 0, .ok (ipoptStatus status, sol)⟩ : IpoptRun F)) = .ok run := by
    intro x hx
    obtain ⟨q2, ⟨status, x', lamnu', pi', mu'⟩, hrun, hinv⟩ := Native.obeys_total hs hsm hv
      (ho q.base.ipoptArgs i sb x (List.replicate (q.base.na + q.base.nf) zero) (List.replicate q.base.nx zero) (List.replicate q.base.nx zero))
      CbAt.start
    rw [hrun, R.ok_bind]
    dsimp only
    rw [ipoptSol_ok (by rw [length_overwrite, hx, hinv.nx]) (by rw [length_overwrite, List.length_replicate, hinv.na, hinv.nf])
      (by rw [length_overwrite, List.length_replicate, hinv.nx]) (by rw [length_overwrite, List.length_replicate, hinv.nx]), R.ok_bind]
    exact ⟨_, rfl⟩
  cases hq : q.base.x0 with
  | none => exact key _ (by simp)
  | some x0 =>
    have : (x0.length == q.base.nx) = true := by simp [hx0 x0 hq]
    dsimp only
    rw [if_pos this]
    exact key x0 (hx0 x0 hq)

end

/-! ## Examples -/

/-- Minimise `x²` with `x = 1` and `x³ = 0`, as an `Nlp`: one linear and one nonlinear constraint. -/
def exFn : EvalFn Q := fun _ xs =>
  match xs with
  | [x] => .ok ⟨x *. x, [some 2 *. x], ⟨(1, 1), [0], [0], [some 2]⟩, [x *. (x *. x)], ⟨(1, 1), [0], [0], [some 3 *. (x *. x)]⟩,
      [⟨(1, 1), [0], [0], [some 6 *. x]⟩]⟩
  | _ => .error .index

def exNlpBase : Minlp Q :=
  Minlp.initial ⟨(1, 1), [0], [0], [some 0]⟩ ⟨(1, 1), [0], [0], [some 1]⟩ [some 1] ⟨(1, 1), [0], [0], [some 0]⟩ [⟨(1, 1), [0], [0], [some 0]⟩]
    [some (-10)] [some 10] [false] none exFn

def exVal (xs : List Q) : EvalBuf Q :=
  ⟨(xs.headD (some 0)) *. (xs.headD (some 0)), [some 2 *. (xs.headD (some 0))], ⟨(1, 1), [0], [0], [some 2]⟩,
    [(xs.headD (some 0)) *. ((xs.headD (some 0)) *. (xs.headD (some 0)))],
    ⟨(1, 1), [0], [0], [some 3 *. ((xs.headD (some 0)) *. (xs.headD (some 0)))]⟩, [⟨(1, 1), [0], [0], [some 6 *. (xs.headD (some 0))]⟩]⟩

/-- The constructor makes this problem. -/
theorem exNlp_new : Nlp.new (F := Q) ⟨(1, 1), [0], [0], [some 0]⟩ ⟨(1, 1), [0], [0], [some 1]⟩ [some 1] ⟨(1, 1), [0], [0], [some 0]⟩
    [⟨(1, 1), [0], [0], [some 0]⟩] [some (-10)] [some 10] none exFn = .ok ⟨exNlpBase⟩ := by
  unfold Nlp.new
  have hd : DimsOk (F := Q) ⟨(1, 1), [0], [0], [some 0]⟩ ⟨(1, 1), [0], [0], [some 1]⟩ [some 1] ⟨(1, 1), [0], [0], [some 0]⟩
      [⟨(1, 1), [0], [0], [some 0]⟩] [some (-10)] [some 10] (List.replicate 1 false) :=
    ⟨⟨rfl, rfl⟩, rfl, rfl, rfl, by simp [Coo.rows, Coo.cols], rfl, rfl, rfl⟩
  have := Minlp.new_ok (x0 := none) (evalFn := exFn) (by simp [Coo.WF]) hd
  exact congrArg (fun r => r >>= fun q => Except.ok (Nlp.mk q)) this

theorem exNlp_sound : exNlpBase.Sound :=
  C51_constructed ⟨rfl, rfl⟩ ⟨rfl, rfl⟩ (by decide) ⟨rfl, rfl⟩ (by simp [Coo.WF]) exNlp_new

theorem exNlp_small : exNlpBase.Small :=
  ⟨⟨by decide, by decide⟩, ⟨by decide, by decide⟩, ⟨by decide, by decide⟩, ⟨by decide, by decide⟩⟩

theorem exNlp_evals : EvalsTo exNlpBase exVal := by
  have hx1 : ∀ x : List Q, x.length = exNlpBase.nx → ∃ v, x = [v] := by
    intro x hx
    match x, hx with
    | [v], _ => exact ⟨v, rfl⟩
  constructor
  · intro ops q' hr x hx
    obtain ⟨v, rfl⟩ := hx1 x hx
    have := (runProb_data hr).2.2.2.2.2
    unfold Minlp.evaluate
    rw [this]
    rfl
  · intro x hx
    obtain ⟨v, rfl⟩ := hx1 x hx
    exact ⟨rfl, ⟨rfl, rfl, rfl, rfl⟩, rfl, ⟨rfl, rfl, rfl, rfl⟩, .cons ⟨rfl, rfl, rfl, rfl⟩ .nil⟩

/-- A sequence of requests: the patterns, a request with a null pointer, the objective at 1, the gradient and the constraints at the same
point, the Hessian at 1 with multipliers (5, 1). -/
def exCalls : List (Call Q) :=
  [.jacG 1 none 0 2 2 true true false true, .h 1 none 0 (some 0) 2 none 0 2 true true false true, .f 1 none 1 true true,
   .f 1 (some [some 1]) 1 true true, .gradF 1 (some [some 1]) 0 true true, .g 1 (some [some 1]) 0 2 true true,
   .h 1 (some [some 1]) 0 (some 1) 2 (some [some 5, some 1]) 1 2 true true true true]

theorem exCalls_protocol : Protocol exNlpBase none exCalls (some [some 1]) :=
  .pattern ⟨rfl, rfl, rfl, rfl, rfl, rfl, rfl⟩ <| .pattern ⟨rfl, rfl, rfl, rfl, rfl, rfl, rfl⟩ <| .refused (.inl rfl) (by simp [Call.LateRefusal]) <|
  .values (x := [some 1]) ⟨rfl, rfl, rfl, rfl, rfl⟩ (.inl rfl) <| .values (x := [some 1]) ⟨rfl, rfl, rfl, rfl, rfl⟩ (.inr rfl) <|
  .values (x := [some 1]) ⟨rfl, rfl, rfl, rfl, rfl, rfl⟩ (.inr rfl) <|
  .values (x := [some 1]) ⟨rfl, rfl, rfl, rfl, rfl, rfl, rfl, _, rfl, rfl⟩ (.inr rfl) <| .nil _

/-- C51, C52 on the example: after these calls, the values at the new point 2. -/
example : ∃ q, runCalls exNlpBase exCalls = .ok q ∧
    (∃ q', evalFCb q 1 (some [some 2]) 1 true true = .ok (q', ⟨true, [some 4], [], []⟩)) ∧
    (∃ q', evalGCb q 1 (some [some 2]) 1 2 true true = .ok (q', ⟨true, [some 1, some 8], [], []⟩)) ∧
    (∃ q', evalJacGCb q 1 (some [some 2]) 1 2 2 true true true true = .ok (q', ⟨true, [some 1, some 12], [], []⟩)) := by
  obtain ⟨q, h1, h2, -, h3, h4⟩ := C51_answers exNlp_sound exNlp_small exNlp_evals exCalls_protocol (x := [some 2]) rfl (newX := 1) (.inl rfl)
  have e1 : (exVal [some 2]).phi = some 4 := by decide +kernel
  have e2 : constraintValues exNlpBase (exVal [some 2]) [some 2] = [some 1, some 8] := by decide +kernel
  have e3 : (jacobianEntries exNlpBase (exVal [some 2])).map (fun e => e.2.2) = [some 1, some 12] := by decide +kernel
  rw [e1] at h2; rw [e2] at h3
  obtain ⟨q', h4⟩ := h4 true true
  rw [e3] at h4
  exact ⟨q, h1, h2, h3, q', h4⟩

/-- What a request answers after a sequence of requests. -/
def answerAfter (q : Minlp Q) (calls : List (Call Q)) (c : Call Q) : Option (Bool × List Q × List Int × List Int) :=
  ((runCalls q calls).toOption.bind fun q => (c.exec q).toOption).map fun r => (r.2.ok, r.2.values, r.2.irow, r.2.jcol)

/-- C51 is false for this problem: the pattern announces the derivative of `x³` in row 0, that of the linear constraint; it belongs
to row 1. -/
example : answerAfter exNlpBase [] (.jacG 1 none 0 2 2 true true false true) = some (true, [], [0, 0], [0, 0]) ∧
    (jacobianEntries exNlpBase (exVal [some 2])).map (fun e => (e.1, e.2.1)) = [(0, 0), (1, 0)] := by decide +kernel

/-- C52 is false for this problem: after the Hessian at 1 with multipliers (5, 1), a request at the new point 2 with the same multipliers
delivers 6, the second derivative of `x³` at 1; it is 12 at 2. With the same point and multipliers and a new objective factor nothing
is written. -/
example : answerAfter exNlpBase exCalls (.h 1 (some [some 2]) 1 (some 1) 2 (some [some 5, some 1]) 0 2 true true true true) =
      some (true, [some 2, some 6], [], []) ∧
    (hessianEntries (exVal [some 2]) (some 1) [some 1]).map (fun e => e.2.2) = [some 2, some 12] ∧
    answerAfter exNlpBase exCalls (.h 1 (some [some 1]) 0 (some 0) 2 (some [some 5, some 1]) 0 2 true true true true) =
      some (true, [], [], []) := by
  refine ⟨by decide +kernel, by decide +kernel, by decide +kernel⟩

/-- C53 is false for one request: Hessian values at the new point 2 with multipliers that are null are refused, but the problem has
been evaluated at 2 before: a request for the objective at the old point 1 then delivers 4 instead of 1. -/
theorem C53_counterexample :
    Call.Inconsistent exNlpBase (.h 1 (some [some 2]) 1 (some 1) 2 none 1 2 true true true true) ∧
    answerAfter exNlpBase exCalls (.h 1 (some [some 2]) 1 (some 1) 2 none 1 2 true true true true) = some (false, [], [], []) ∧
    answerAfter exNlpBase exCalls (.f 1 (some [some 1]) 0 true true) = some (true, [some 1], [], []) ∧
    answerAfter exNlpBase (exCalls ++ [.h 1 (some [some 2]) 1 (some 1) 2 none 1 2 true true true true]) (.f 1 (some [some 1]) 0 true true) =
      some (true, [some 4], [], []) := by
  refine ⟨.inr (.inr (.inr (.inr (.inr (.inr ⟨rfl, rfl, rfl⟩))))), by decide +kernel, by decide +kernel, by decide +kernel⟩

/-- A native library: it asks for the patterns, evaluates everything at the initial point, and answers with that point. -/
def exLib : IpoptLib Q where
  create _ := true
  addInt _ v := 0 ≤ v && v ≤ 12
  addStr _ _ := true
  solve _ _ _ _ _ _ _ := .call (.jacG 1 none 0 2 2 true true false true) fun _ => .call (.f 1 (some [some 1]) 1 true true) fun a =>
    .call (.h 1 (some [some 1]) 0 (some 1) 2 (some [some 5, some 1]) 1 2 true true true true) fun _ =>
    .done (if a.ok then 0 else 2) [some 1] [some 5, some (-3)] [some 7] [some 8]

example (args : IpoptArgs Q) (level : Int) (sb : String) (x lamnu pi mu : List Q) : (exLib.solve args level sb x lamnu pi mu).Obeys exNlpBase none :=
  .pattern ⟨rfl, rfl, rfl, rfl, rfl, rfl, rfl⟩ fun _ => .values (x := [some 1]) ⟨rfl, rfl, rfl, rfl, rfl⟩ (.inl rfl) fun _ =>
  .values (x := [some 1]) ⟨rfl, rfl, rfl, rfl, rfl, rfl, rfl, _, rfl, rfl⟩ (.inr rfl) fun _ => .done ..

/-- The parts of the result. -/
def liveAfter (r : R (Problem Q × Nat × Except String (Status × Sol Q))) : Option Nat := r.toOption.map fun r => r.2.1

def statusAfter (r : R (Problem Q × Nat × Except String (Status × Sol Q))) : Option Status :=
  r.toOption.bind fun r => r.2.2.toOption.map fun s => s.1

def solAfter (r : R (Problem Q × Nat × Except String (Status × Sol Q))) : Option (List (List Q)) :=
  r.toOption.bind fun r => r.2.2.toOption.map fun s => [s.2.x, s.2.lam, s.2.nu, s.2.mu, s.2.pi]

/-- C54 on the example: a solution; and an error that leaves the native problem. -/
example : liveAfter (ipoptSolve ipoptParams exLib (.nlp ⟨exNlpBase⟩)) = some 0 ∧
    statusAfter (ipoptSolve ipoptParams exLib (.nlp ⟨exNlpBase⟩)) = some .solved ∧
    solAfter (ipoptSolve ipoptParams exLib (.nlp ⟨exNlpBase⟩)) = some [[some 1], [some (-5)], [some 3], [some 8], [some 7]] ∧
    liveAfter (ipoptSolve (setParams ipoptParams [("print_level", .int 100)]) exLib (.nlp ⟨exNlpBase⟩)) = some 1 := by
  decide +kernel

/-- The model `minimize x subject to x + y = 3, x * y = 2`: one linear and one nonlinear constraint. -/
def exMixed : List (Cmd Q) := [.expr (.var "x" .continuous), .expr (.var "y" .continuous), .expr (.add 0 1), .expr (.mul 0 1),
  .cmpNodeScalar .equal 2 (some 3) "lin", .cmpNodeScalar .equal 3 (some 2) "prod", .addConstraints [0, 1], .minimize 0]

/-- The pattern that is announced for the Jacobian of the standard problem of a model, and the one that it has. -/
def jacRows (cmds : List (Cmd Q)) : Option (List Int × List Int) :=
  (resultOf ((worldOf cmds).m.stdProblem HashOrder.listOrder) (wcount cmds)).bind fun sp => sp.prob.views[0]?.bind fun q =>
    (answerAfter q [] (.jacG q.nx none 0 (q.na + q.nf : Nat) (q.a.nnz + q.buf.j.nnz : Nat) true true false true)).map fun a =>
      (a.2.2.1, (jacobianEntries q q.buf).map fun e => e.1)

/-- C51 is false for this model, which Ipopt is meant for: the derivatives of `x * y` are announced as belonging to `x + y = 3`. -/
theorem C51_counterexample_model : ReachableApiW HashOrder.listOrder (worldOf exMixed) (wcount exMixed) ∧
    jacRows exMixed = some ([0, 0, 0, 0], [0, 0, 1, 1]) :=
  ⟨runsW_reachable (by decide +kernel) (by decide +kernel), by decide +kernel⟩

/-- Non-vacuity of C55 for Ipopt: `minimize x subject to x >= 2, x <= 5`; the result of `solve`, the status and the primals. -/
example : ReachableW HashOrder.listOrder (worldOf exLp) (wcount exLp) ∧
    ((worldOf exLp).m.solve HashOrder.listOrder (ipoptFn ipoptParams
      { exLib with solve := fun _ _ _ x _ _ _ => .call (.gradF 1 (some x) 1 true true) fun _ => .done 1 [some 2] [] [some 1] [some 0] }) (wcount exLp)).toOption.map
      (fun r => (r.1.1.toOption, r.1.2.solverStatus, r.1.2.finalPrimals.map Prod.snd)) = some (some (), some .solved, [some 2]) :=
  ⟨(runsW_reachable (by decide +kernel) (by decide +kernel) : ReachableApiW _ _ _).reachable, by decide +kernel⟩

end Verif
