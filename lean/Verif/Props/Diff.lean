import Verif.Props.Expr2
import Verif.Proofs.Calc
import Verif.Spec.Paths

/-!
# Properties of differentiation: C07 – C11
-/

set_option linter.unusedSectionVars false
set_option linter.unusedSimpArgs false

namespace Verif

open Exact Filter Topology

section
variable {F : Type} [FloatOps F]

theorem setOf_single (x : Node F) : setOf [x] = [x] := by simp [setOf, setInsert]

theorem iter_single {α : Type} (H : HashOrder) (x : α) (n : Nat) : H.iter [x] n = .ok ([x], n + 1) := by
  have hp := H.perm n α [x]
  rw [HashOrder.iter_ok]
  exact ⟨(List.perm_singleton.1 hp).symm, rfl⟩

/-- What `derivatives` computes for one variable. -/
theorem derivatives_single {H : HashOrder} {e x : Node F} (hx : x.isVar = true) (n : Nat) :
    derivatives H e [x] n = (M.bind (pathSum (.const (n + 2) zero) ((dfs e).filter (endsAt x))) fun d =>
      M.pure [(x, d)]) (n + 3) := by
  have hc : checkVars [x] = M.pure () := by simp [checkVars, hx]
  have h1 : allSimplePaths H e [x] (n + 1) = .ok ([(x, (dfs e).filter (endsAt x))], n + 2) := by
    simp only [allSimplePaths, hc, setOf_single]
    rw [M.bind_ok_eq (x := M.pure ()) rfl, M.bind_ok_eq (iter_single H x (n + 1))]
    simp [M.pure, searchPaths_eq, pending]
  simp only [derivatives, hc, setOf_single]
  rw [M.bind_ok_eq (x := M.pure ()) rfl, M.bind_ok_eq (iter_single H x n), M.bind_ok_eq h1]
  simp only [M.mapL, getN, ptrEq_refl, if_true, unwrapM]
  simp only [M.bind, newConst_eq, M.pure]
  cases pathSum (.const (n + 2) zero) ((dfs e).filter (endsAt x)) (n + 3) <;> rfl

/-- What `derivative` computes. -/
theorem derivative_eq {H : HashOrder} {e x : Node F} (hx : x.isVar = true) (n : Nat) :
    derivative H e x n = pathSum (.const (n + 2) zero) ((dfs e).filter (endsAt x)) (n + 3) := by
  have h3 : derivative H e x n = M.bind (derivatives H e [x]) (fun ds => unwrapM (getN ds x)) n := rfl
  rw [h3]
  unfold M.bind
  rw [derivatives_single hx]
  unfold M.bind
  cases pathSum (.const (n + 2) zero) ((dfs e).filter (endsAt x)) (n + 3) with
  | error p => rfl
  | ok r => simp [M.pure, getN, ptrEq_refl, unwrapM]

theorem derivative_isVar {H : HashOrder} {e x d : Node F} {n m : Nat} (h : derivative H e x n = .ok (d, m)) :
    x.isVar = true := by
  simp only [derivative, M.bind_ok] at h
  obtain ⟨ds, k, h, _⟩ := h
  exact (derivatives_ok h).1 x (by simp)

end

/-! ## C07 the derivative is the derivative -/

/-- C07 (for expressions in which no quotient has one node as numerator and denominator; the full statement is false, see
`C07_counterexample`): where the expression is defined, the returned derivative expression is defined, and its value is the
derivative of the expression as a function of `x` (which is defined in a neighbourhood). -/
theorem C07_derivative_partial {H : HashOrder} {regs : List (Node (Option ℝ))} {n m : Nat} (hr : ReachableApi H regs n)
    {e x d : Node (Option ℝ)} (he : e ∈ regs) (hs : NoSelfDiv e) (h : derivative H e x n = .ok (d, m))
    {σ : Env (Option ℝ)} {t0 : ℝ} (hσ : σ x.id = some (some t0)) (hd : Defined e σ) :
    ∃ v, d.evaluate σ = some v ∧ HasDerivAt (section' e x σ) v t0 ∧
      ∀ᶠ t in 𝓝 t0, Defined e (σ.set x.id (some t)) := by
  obtain ⟨hp, -, hg⟩ := hr.inv
  have hx := derivative_isVar h
  have hg' := (hg e he).strengthen hs
  rw [derivative_eq hx] at h
  refine ⟨numD σ x e, ?_, (numD_hasDerivAt hx hσ e hd).2, (numD_hasDerivAt hx hσ e hd).1⟩
  rw [pathSum_val (fun p hp => dfs_defPath e hd p (List.mem_filter.1 hp).1) (x := 0) rfl h, zero_add,
    ← pathsVal_eq_numD σ x e hg']
  rfl

/-- C07, what is returned for every expression, self-quotients or not (exact scalars): where the expression is defined, the returned
derivative has the value given by the rules of calculus, except that a quotient of a node by itself contributes `2 a' / a` instead of 0. -/
theorem C07_exact {K : Type} [Field K] [LinearOrder K] [Trig K] {H : HashOrder} {regs : List (Node (Option K))} {n m : Nat}
    (hr : Reachable H regs n) {e x d : Node (Option K)} (he : e ∈ regs) (h : derivative H e x n = .ok (d, m))
    {σ : Env (Option K)} (hd : Defined e σ) : d.evaluate σ = some (ruleD σ x e) := by
  obtain ⟨hp, -, hg⟩ := hr.inv
  have hx := derivative_isVar h
  rw [derivative_eq hx] at h
  rw [pathSum_val (fun p hp => dfs_defPath e hd p (List.mem_filter.1 hp).1) (x := 0) rfl h, zero_add,
    ← pathsVal_eq_ruleD x e (hg e he) hd]
  rfl

/-- Non-vacuity of `C07_exact` on an expression with a self-quotient: the derivative of `(x/x)*y + x` with respect to `x` is returned,
the expression is defined at x = 2, y = 3, and the returned value is `2/2 * 3 + 1 = 4`, not the derivative 1. -/
example :
    let ops : List (Op Q) := [.var "x" .continuous, .var "y" .continuous, .div 0 0, .mul 2 1, .add 3 0]
    Reachable HashOrder.listOrder (regsOf ops) (countOf ops) ∧
    ((regsOf ops)[4]!).evaluate (envOf [(0, 2), (1, 3)]) = some 5 ∧
    (resultOf (derivative HashOrder.listOrder ((regsOf ops)[4]!) ((regsOf ops)[0]!)) (countOf ops)).map
      (Node.evaluate (envOf [(0, 2), (1, 3)])) = some (some 4) := by
  refine ⟨runs_reachable (by decide +kernel), by decide +kernel, ?_⟩
  rw [show resultOf (derivative HashOrder.listOrder _ _) _ = resultOf (pathSum _ _) _ from by
    unfold resultOf; rw [derivative_eq (by decide +kernel)]]
  decide +kernel

/-- C07: for a variable, `derivative` can fail only in the assertion of `FunctionAdd::new` (the defect of C03). -/
theorem C07_only_panic {F : Type} [FloatOps F] {H : HashOrder} {regs : List (Node F)} {n : Nat} (hr : ReachableApi H regs n)
    {e x : Node F} (he : e ∈ regs) (hx : x.isVar = true) {p : Panic} (h : derivative H e x n = .error p) : p = .addArgs := by
  obtain ⟨hp, hn, hg⟩ := hr.inv
  rw [derivative_eq hx] at h
  have hn2 : HInv hp (n + 2) := fun i hi => hn i (by omega)
  obtain ⟨hp1, hle1, hn1, _, hg1, -, -⟩ := spec_newConst (l := .api) (v := (zero : F)) hn2 _ _ (newConst_eq zero (n + 2))
  exact onlyAdd_pathSum (l := .api) (by simp) (fun p hp => dfs_argPath e p (List.mem_filter.1 hp).1) hn1 hg1
    (fun p hp y hy => ((hg e he).mono hle1).sub (dfs_occurs e p (List.mem_filter.1 hp).1 y hy)) p h

/-- Non-vacuity of C07: over the rationals, the derivative of `x*y + sin(x)/y` with respect to `x` is returned, and with
the stand-in cosine `1 + x` it has the value `y + (1 + x)/y` at x = 2, y = 4. -/
example :
    let ops : List (Op Q) := [.var "x" .continuous, .var "y" .continuous, .mul 0 1, .sin 0, .div 3 1, .add 2 4]
    ReachableApi HashOrder.listOrder (regsOf ops) (countOf ops) ∧
    (resultOf (derivative HashOrder.listOrder ((regsOf ops)[5]!) ((regsOf ops)[0]!)) (countOf ops)).map
      (Node.evaluate (envOf [(0, 2), (1, 4)])) = some (some (4 + 3/4)) := by
  refine ⟨runs_reachableApi (by decide +kernel) (by decide +kernel), ?_⟩
  rw [show resultOf (derivative HashOrder.listOrder _ _) _ = resultOf (pathSum _ _) _ from by
    unfold resultOf; rw [derivative_eq (by decide +kernel)]]
  decide +kernel

/-- Non-vacuity of C07 over the reals: `sin(x*y)` is reachable, free of self-quotients and has a derivative. -/
example : ∃ (regs : List (Node (Option ℝ))) (n m : Nat) (e x d : Node (Option ℝ)),
    ReachableApi HashOrder.listOrder regs n ∧ e ∈ regs ∧ NoSelfDiv e ∧
      derivative HashOrder.listOrder e x n = .ok (d, m) ∧ Defined e (fun _ => some (some 3)) := by
  let x : Node (Option ℝ) := .var 0 "x" .continuous
  let y : Node (Option ℝ) := .var 1 "y" .continuous
  let e : Node (Option ℝ) := .sin 3 (.mul 2 x y)
  have h1 : ∃ d m, derivative HashOrder.listOrder e x 4 = .ok (d, m) := by
    rw [derivative_eq rfl]
    simp [e, x, y, dfs, endsAt, Node.ptrEq, Node.tag, Node.id, pathSum, pathProd, partialN, M.bind, cosN, mulN, mulCL, addN,
      Node.isConstVal, M.pure]
  obtain ⟨d, m, h1⟩ := h1
  refine ⟨[x, y, .mul 2 x y, e], 4, m, e, x, d,
    ⟨[.var "x" .continuous, .var "y" .continuous, .mul 0 1, .sin 2], by simp [Op.isRaw], rfl⟩, by simp, ?_, h1,
    ⟨Real.sin (3 * 3), rfl⟩⟩
  intro i a b h
  simp only [e, x, y] at h
  rw [occurs_iff] at h
  simp only [Node.arguments, List.mem_cons, List.not_mem_nil, or_false, exists_eq_left, reduceCtorEq, false_or] at h
  rw [occurs_iff] at h
  simp only [Node.arguments, List.mem_cons, List.not_mem_nil, or_false, exists_eq_or_imp, exists_eq_left, reduceCtorEq, false_or] at h
  rcases h with h | h <;> (rw [occurs_iff] at h; simp [Node.arguments] at h)

/-- C07 without the restriction is false: the derivative of `x / x` (which is 1 at every non-zero point) is `2 / x`. -/
theorem C07_counterexample :
    ∃ (regs : List (Node Q)) (n : Nat) (e x d : Node Q) (m : Nat), ReachableApi HashOrder.listOrder regs n ∧ e ∈ regs ∧
      derivative HashOrder.listOrder e x n = .ok (d, m) ∧
      (∀ t : ℚ, t ≠ 0 → e.evaluate (Env.set (fun _ => none) x.id (some t)) = some 1) ∧
      (∀ t : ℚ, t ≠ 0 → d.evaluate (Env.set (fun _ => none) x.id (some t)) = some (2 / t)) := by
  let x : Node Q := .var 0 "x" .continuous
  let ops : List (Op Q) := [.var "x" .continuous, .div 0 0]
  have hr : ReachableApi HashOrder.listOrder (regsOf ops) (countOf ops) :=
    runs_reachableApi (by decide +kernel) (by decide +kernel)
  have h0 : (regsOf ops)[1]! = .div 1 x x := by decide +kernel
  have h1 : ∃ d, resultOf (pathSum (.const (2 + 2) zero) ((dfs (.div 1 x x)).filter (endsAt x))) (2 + 3) = some d ∧
      strip d = .add 0 [.div 0 (.const 0 (some 1)) x, .div 0 (.const 0 (some 1)) x] := by
    refine ⟨_, rfl, by decide +kernel⟩
  obtain ⟨d, h1, hd⟩ := h1
  obtain ⟨m, h1⟩ := of_resultOf h1
  refine ⟨regsOf ops, countOf ops, .div 1 x x, x, d, m, hr, ?_, ?_, ?_, ?_⟩
  · rw [← h0]; exact get_mem (by decide +kernel)
  · rw [derivative_eq rfl, show countOf ops = 2 from by decide +kernel]; exact h1
  · intro t ht
    simp [Node.evaluate, x, Env.set, Node.id, div_some_ne _ ht, ht]
  · intro t ht
    rw [← evaluate_strip, hd]
    rw [evaluate_add]
    simp [Node.evaluate, x, Env.set, Node.id, div_some_ne _ ht]
    ring

/-! ## C08 derivative with respect to an absent variable -/

section
variable {F : Type} [FloatOps F]

theorem filter_absent {e x : Node F} (hx : ∀ y, Occurs y e → y.ptrEq x = false) : (dfs e).filter (endsAt x) = [] := by
  rw [List.filter_eq_nil_iff]
  intro p hp hend
  unfold endsAt at hend
  cases hl : p.getLast? with
  | none => simp [hl] at hend
  | some y =>
    rw [hl] at hend
    change y.ptrEq x = true at hend
    rw [hx y (dfs_occurs e p hp y (List.mem_of_getLast? hl))] at hend
    cases hend

/-- C08: if the variable does not occur, the derivative is returned and is the constant 0. -/
theorem C08_absent {H : HashOrder} {e x : Node F} (hvar : x.isVar = true) (hx : ∀ y, Occurs y e → y.ptrEq x = false) (n : Nat) :
    ∃ i m, derivative H e x n = .ok (.const i zero, m) := by
  rw [derivative_eq hvar, filter_absent hx]
  exact ⟨_, _, rfl⟩

/-- Non-vacuity of C08: `y` does not occur in `sin x`. -/
example : ∀ z : Node Q, Occurs z (.sin 1 (.var 0 "x" .continuous)) → z.ptrEq (.var 2 "y" .continuous) = false := by
  intro z hz
  rw [occurs_iff] at hz
  simp only [Node.arguments, List.mem_cons, List.not_mem_nil, or_false, exists_eq_left] at hz
  rcases hz with rfl | hz
  · rfl
  · rw [occurs_iff] at hz
    simp only [Node.arguments, List.not_mem_nil, false_and, exists_false, or_false] at hz
    subst hz; rfl

/-! ## C09 batch derivatives -/

/-- C09: `derivatives` returns one entry per distinct requested variable, and each entry is equal, up to the addresses of
newly created cells, to the result of `derivative`; in particular it has the same value everywhere. -/
theorem C09_batch {H H' : HashOrder} {e : Node F} {vars : List (Node F)} {n m n' : Nat} {r : List (Node F × Node F)}
    (h0 : derivatives H e vars n = .ok (r, m)) :
    (r.map Prod.fst).Pairwise (fun a b => a.ptrEq b = false) ∧
    (∀ x ∈ vars, ∃ p ∈ r, p.1.ptrEq x = true) ∧ (∀ p ∈ r, p.1 ∈ vars) ∧
    (∀ p ∈ r, ∃ d m', derivative H' e p.1 n' = .ok (d, m') ∧ Sim p.2 d ∧ ∀ σ, p.2.evaluate σ = d.evaluate σ) := by
  obtain ⟨hv, vs, hp, h⟩ := derivatives_ok h0
  have hkeys : r.map Prod.fst = vs := by
    have := M.mapL_ok_forall (P := fun v p => p.1 = v) h ?_
    · clear h hp h0
      induction this with
      | nil => rfl
      | cons h1 _ ih => simp [h1, ih]
    · intro v _ p n m hh
      simp only [M.bind_ok, M.pure_ok] at hh
      obtain ⟨_, _, _, _, _, _, rfl, _⟩ := hh
      rfl
  have hf := M.mapL_ok_forall (P := fun v p => p.1 = v ∧ ∃ k k' n0, pathSum (.const k zero) ((dfs e).filter (endsAt v)) n0
      = .ok (p.2, k')) h ?_
  · refine ⟨?_, ?_, ?_, ?_⟩
    · rw [hkeys]; exact (setOf_nodup vars).perm hp.symm
    · intro x hx
      obtain ⟨y, hy, hyx⟩ := setOf_has hx
      have : y ∈ r.map Prod.fst := by rw [hkeys]; exact hp.mem_iff.2 hy
      obtain ⟨p, hp1, rfl⟩ := List.mem_map.1 this
      exact ⟨p, hp1, hyx⟩
    · intro p hp1
      have : p.1 ∈ vs := by rw [← hkeys]; exact List.mem_map.2 ⟨p, hp1, rfl⟩
      exact setOf_mem (hp.mem_iff.1 this)
    · intro p hp1
      obtain ⟨v, hvm, rfl, k, k', n0, hk⟩ := derivatives_val.forall₂_mem_right hf p hp1
      have hvar := hv _ (setOf_mem (hp.mem_iff.1 hvm))
      obtain ⟨d, m', hd, hsim⟩ := (sim_pathSum ((dfs e).filter (endsAt p.1)) (sim_const.2 rfl :
        Sim (.const k zero) (.const (n' + 2) zero))).ok hk (n' + 3)
      exact ⟨d, m', by rw [derivative_eq hvar]; exact hd, hsim, fun σ => hsim.evaluate σ⟩
  · intro v _ p n m hh
    simp only [M.bind_ok, M.pure_ok, newConst_ok] at hh
    obtain ⟨_, _, ⟨rfl, rfl⟩, d, k2, h1, rfl, rfl⟩ := hh
    exact ⟨rfl, _, _, _, h1⟩

/-- C09: `derivative` does not depend on the iteration order of hash sets (up to addresses of new cells): it returns or
panics in the same cases, with the same expression. -/
theorem C09_order_independent {H H' : HashOrder} {e x : Node F} (hx : x.isVar = true) :
    Sim2 (derivative H e x) (derivative H' e x) Sim := by
  intro n n'
  rw [derivative_eq hx, derivative_eq hx]
  exact sim_pathSum _ (sim_const.2 rfl) _ _

/-! ## C10 paths -/

/-- The branches (lists of argument positions) of an expression that lead to variables, in the order of the search. -/
def branches : Node F → List (List Nat)
  | .const .. => []
  | .var .. => [[]]
  | .add _ args => branchesL 0 args
  | .cos _ a => (branches a).map (0 :: ·)
  | .sin _ a => (branches a).map (0 :: ·)
  | .mul _ a b => (branches b).map (1 :: ·) ++ (branches a).map (0 :: ·)
  | .div _ a b => (branches b).map (1 :: ·) ++ (branches a).map (0 :: ·)
where
  /-- for the arguments of a sum -/
  branchesL (i : Nat) : List (Node F) → List (List Nat)
    | [] => []
    | a :: as => branchesL (i + 1) as ++ (branches a).map (i :: ·)

theorem branches_eq (e : Node F) : branches e = if e.isVar then [[]] else branches.branchesL 0 e.arguments := by
  cases e <;> simp [branches, branches.branchesL, Node.isVar, Node.arguments]

theorem mem_branchesL {as : List (Node F)} {i : Nat} {br : List Nat} :
    br ∈ branches.branchesL i as ↔ ∃ j a t, as[j]? = some a ∧ t ∈ branches a ∧ br = (i + j) :: t := by
  induction as generalizing i with
  | nil => simp [branches.branchesL]
  | cons a as ih =>
    simp only [branches.branchesL, List.mem_append, ih, List.mem_map]
    constructor
    · rintro (⟨j, b, t, h1, h2, rfl⟩ | ⟨t, h2, rfl⟩)
      · exact ⟨j + 1, b, t, by simpa using h1, h2, by simp; omega⟩
      · exact ⟨0, a, t, by simp, h2, by simp⟩
    · rintro ⟨j, b, t, h1, h2, rfl⟩
      cases j with
      | zero => simp at h1; subst h1; exact .inr ⟨t, h2, by simp⟩
      | succ j => exact .inl ⟨j, b, t, by simpa using h1, h2, by simp; omega⟩

theorem branchesL_nodup {as : List (Node F)} (h : ∀ a ∈ as, (branches a).Nodup) (i : Nat) :
    (branches.branchesL i as).Nodup := by
  induction as generalizing i with
  | nil => simp [branches.branchesL]
  | cons a as ih =>
    simp only [branches.branchesL]
    rw [List.nodup_append]
    refine ⟨ih (fun b hb => h b (by simp [hb])) _, ?_, ?_⟩
    · exact (h a (by simp)).map (fun x y hxy => by simpa using hxy)
    · intro x hx y hy hxy
      rw [mem_branchesL] at hx
      obtain ⟨j, b, t, _, _, rfl⟩ := hx
      obtain ⟨t', _, rfl⟩ := List.mem_map.1 hy
      simp at hxy
      omega

theorem branches_nodup (e : Node F) : (branches e).Nodup := by
  induction e using Node.ind_args with
  | step e ih =>
    rw [branches_eq]
    split
    · simp
    · exact branchesL_nodup ih 0

theorem walk_var {e : Node F} (h : e.isVar = true) (i : Nat) (is : List Nat) : walk e (i :: is) = none := by
  cases e <;> simp_all [Node.isVar, walk, Node.arguments]

/-- A branch belongs to `branches e` iff it leads to a variable. -/
theorem mem_branches (e : Node F) : ∀ br, br ∈ branches e ↔ ∃ p y, walk e br = some p ∧ p.getLast? = some y ∧ y.isVar = true := by
  induction e using Node.ind_args with
  | step e ih =>
    intro br
    rw [branches_eq]
    by_cases hv : e.isVar = true
    · rw [if_pos hv]
      cases br with
      | nil => simp [walk, hv]
      | cons i is => simp [walk_var hv]
    · rw [if_neg hv]
      rw [mem_branchesL]
      cases br with
      | nil => simp [walk, hv]
      | cons i is =>
        simp only [walk, Nat.zero_add, List.cons.injEq]
        constructor
        · rintro ⟨j, a, t, h1, h2, rfl, rfl⟩
          obtain ⟨p, y, h3, h4, h5⟩ := (ih a (List.mem_of_getElem? h1) _).1 h2
          refine ⟨e :: p, y, by simp [h1, h3], ?_, h5⟩
          cases p with
          | nil => simp at h4
          | cons b p => simpa using h4
        · rintro ⟨p, y, h1, h2, h3⟩
          cases ha : e.arguments[i]? with
          | none => simp [ha] at h1
          | some a =>
            simp only [ha, Option.map_eq_some_iff] at h1
            obtain ⟨q, h1, rfl⟩ := h1
            refine ⟨i, a, is, ha, ?_, rfl, rfl⟩
            rw [ih a (List.mem_of_getElem? ha)]
            refine ⟨q, y, h1, ?_, h3⟩
            cases q with
            | nil =>
              exfalso
              cases is <;> simp [walk] at h1
              split at h1 <;> simp at h1
            | cons b q => simpa using h2

theorem dfs_branches (e : Node F) : dfs e = (branches e).filterMap (walk e) := by
  induction e using Node.ind_args with
  | step e ih =>
    rw [dfs_eq, branches_eq]
    split
    · simp [walk]
    · have key : ∀ (as : List (Node F)) (i : Nat), (∀ a ∈ as, dfs a = (branches a).filterMap (walk a)) →
          (∀ j a, as[j]? = some a → e.arguments[i + j]? = some a) →
          (dfs.dfsL as).map (e :: ·) = (branches.branchesL i as).filterMap (walk e) := by
        intro as
        induction as with
        | nil => intro i _ _; simp [dfs.dfsL, branches.branchesL]
        | cons a as ih2 =>
          intro i h1 h2
          simp only [dfs.dfsL, branches.branchesL, List.map_append, List.filterMap_append]
          rw [ih2 (i + 1) (fun b hb => h1 b (by simp [hb])) fun j b hb => by
            have := h2 (j + 1) b (by simpa using hb)
            rw [← this]; congr 1; omega]
          congr 1
          rw [h1 a (by simp), List.filterMap_map, List.map_filterMap]
          congr 1
          funext br
          have := h2 0 a (by simp)
          simp only [Nat.add_zero] at this
          simp [walk, this]
      exact key e.arguments 0 ih (by simp)

/-- C10: for every requested variable `v` the result has an entry, and its list of paths is: for every branch of the
expression that ends at `v`, exactly once, the nodes along it. (That `searchPaths` is accepted as a total function is the
termination claim.) -/
theorem C10_paths {H : HashOrder} {e : Node F} {vars : List (Node F)} {n m : Nat}
    {r : List (Node F × List (List (Node F)))} (h : allSimplePaths H e vars n = .ok (r, m)) :
    (∀ v ∈ vars, ∃ p ∈ r, p.1.ptrEq v = true) ∧ (r.map Prod.fst).Pairwise (fun a b => a.ptrEq b = false) ∧
    ∀ p ∈ r, p.1 ∈ vars ∧ ∃ brs : List (List Nat), brs.Nodup ∧
      (∀ br, br ∈ brs ↔ ∃ q y, walk e br = some q ∧ q.getLast? = some y ∧ y.isVar = true ∧ y.ptrEq p.1 = true) ∧
      p.2 = brs.filterMap (walk e) := by
  obtain ⟨hv, vs, hp, _, rfl⟩ := allSimplePaths_ok h
  refine ⟨?_, ?_, ?_⟩
  · intro v hv
    obtain ⟨y, hy, hyv⟩ := setOf_has hv
    exact ⟨(y, _), List.mem_map.2 ⟨y, hp.mem_iff.2 hy, rfl⟩, hyv⟩
  · rw [List.map_map]
    have : (Prod.fst ∘ fun v => (v, (dfs e).filter (endsAt v))) = fun v : Node F => v := rfl
    rw [this, List.map_id']
    exact (setOf_nodup vars).perm hp.symm
  · intro p hp1
    obtain ⟨v, hvm, rfl⟩ := List.mem_map.1 hp1
    refine ⟨setOf_mem (hp.mem_iff.1 hvm), (branches e).filter (fun br => (walk e br).any (endsAt v)), ?_, ?_, ?_⟩
    · exact (branches_nodup e).filter _
    · intro br
      rw [List.mem_filter, mem_branches]
      constructor
      · rintro ⟨⟨q, y, h1, h2, h3⟩, h4⟩
        rw [h1] at h4
        simp only [Option.any_some, endsAt, h2] at h4
        exact ⟨q, y, h1, h2, h3, h4⟩
      · rintro ⟨q, y, h1, h2, h3, h4⟩
        exact ⟨⟨q, y, h1, h2, h3⟩, by rw [h1]; simpa [endsAt, h2] using h4⟩
    · rw [dfs_branches, List.filter_filterMap, List.filterMap_filter]
      dsimp only
      congr 1
      funext br
      cases hw : walk e br with
      | none => simp
      | some q => cases hq : endsAt v q <;> simp [hq, Option.guard]

/-- Non-vacuity of C10: in `x*x` there are two paths to `x`. -/
example : ∃ m, allSimplePaths HashOrder.listOrder (.mul 1 (.var 0 "x" .continuous) (.var 0 "x" .continuous) : Node Q)
    [.var 0 "x" .continuous] 2 = .ok ([(.var 0 "x" .continuous,
      [[.mul 1 (.var 0 "x" .continuous) (.var 0 "x" .continuous), .var 0 "x" .continuous],
       [.mul 1 (.var 0 "x" .continuous) (.var 0 "x" .continuous), .var 0 "x" .continuous]])], m) := by
  refine ⟨3, ?_⟩
  simp [allSimplePaths, checkVars, Node.isVar, M.bind, M.pure, setOf_single, iter_single, searchPaths_eq, pending, dfs, endsAt,
    Node.ptrEq, Node.tag, Node.id]

/-! ## C11 only variables -/

/-- The computation never panics with "variable expected". -/
def NoVE {α : Type} (x : M α) : Prop := ∀ n, x n ≠ .error .variableExpected

theorem Total.noVE {α : Type} {x : M α} (h : Total x) : NoVE x := by
  intro n hn
  obtain ⟨a, m, ha⟩ := h n
  rw [hn] at ha; cases ha

theorem NoVE.bind {α β : Type} {x : M α} {f : α → M β} (hx : NoVE x) (hf : ∀ a, NoVE (f a)) : NoVE (M.bind x f) := by
  intro n hn
  rw [M.bind_error] at hn
  rcases hn with hn | ⟨a, k, _, hn⟩
  · exact hx n hn
  · exact hf a k hn

theorem NoVE.ite {α : Type} {c : Prop} [Decidable c] {x y : M α} (hx : NoVE x) (hy : NoVE y) : NoVE (if c then x else y) := by
  split <;> assumption

theorem noVE_pure {α : Type} (a : α) : NoVE (M.pure a) := (Total.pure a).noVE
theorem noVE_newConst (v : F) : NoVE (newConst v) := (total_newConst v).noVE
theorem noVE_newMul (a b : Node F) : NoVE (newMul a b) := (total_newMul a b).noVE
theorem noVE_newDiv (a b : Node F) : NoVE (newDiv a b) := (total_newDiv a b).noVE
theorem noVE_newAdd (as : List (Node F)) : NoVE (newAdd as) := fun n h => by
  have := (newAdd_error.1 h).2; cases this

theorem noVE_mapL {α β : Type} {f : α → M β} {as : List α} (h : ∀ a ∈ as, NoVE (f a)) : NoVE (M.mapL f as) := by
  induction as with
  | nil => exact noVE_pure _
  | cons a as ih =>
    exact (h a (by simp)).bind fun b => (ih fun a ha => h a (by simp [ha])).bind fun bs => noVE_pure _

theorem noVE_sMul (c : F) (a : Node F) : NoVE (sMul c a) := by
  induction a using Node.ind_args with
  | step a ih =>
    rw [sMul_unfold]
    refine .ite ?_ (.ite (noVE_pure _) (.ite (noVE_newConst _) ?_))
    · split <;> exact noVE_newConst _
    · split
      · exact (noVE_mapL fun x hx => ih x (by simpa [Node.arguments] using hx)).bind noVE_newAdd
      · exact (noVE_newConst _).bind fun _ => noVE_newMul _ _

theorem noVE_mulN (a : Node F) : ∀ b : Node F, NoVE (mulN a b) := by
  have step : ∀ a b : Node F, (∀ i c, a = .const i c → ∀ x ∈ b.arguments, NoVE (mulN a x)) →
      (∀ i c, b = .const i c → ∀ x ∈ a.arguments, NoVE (mulN x b)) → NoVE (mulN a b) := by
    intro a b hl hr
    rw [mulN_unfold]
    refine .ite (noVE_newConst _) (.ite (noVE_pure _) (.ite (noVE_pure _) (.ite (noVE_newConst _) ?_)))
    split
    · exact (noVE_mapL fun x hx => hl _ _ rfl x (by simpa [Node.arguments] using hx)).bind noVE_newAdd
    · exact (noVE_mapL fun x hx => hr _ _ rfl x (by simpa [Node.arguments] using hx)).bind noVE_newAdd
    · exact noVE_newMul _ _
  have left : ∀ (i : Nat) (c : F) (b : Node F), NoVE (mulN (.const i c) b) := by
    intro i c b
    induction b using Node.ind_args with
    | step b ih => exact step _ _ (fun i' c' _ x hx => ih x hx) (fun _ _ _ x hx => by simp [Node.arguments] at hx)
  have right : ∀ (i : Nat) (c : F) (b : Node F), NoVE (mulN b (.const i c)) := by
    intro i c b
    induction b using Node.ind_args with
    | step b ih => exact step _ _ (fun _ _ _ x hx => by simp [Node.arguments] at hx) (fun i' c' _ x hx => ih x hx)
  intro b
  refine step a b ?_ ?_
  · rintro i c rfl x _; exact left i c x
  · rintro i c rfl x _; exact right i c x

theorem noVE_addN (a b : Node F) : NoVE (addN a b) := fun n h => by
  have := (addN_error.1 h).2.2.2.2; cases this

theorem noVE_negN (a : Node F) : NoVE (negN a) := by
  rcases negN_cases a with ⟨i, v, rfl, he⟩ | ⟨_, he⟩ <;> rw [he]
  · exact noVE_newConst _
  · exact noVE_sMul _ _

theorem noVE_divN (a b : Node F) : NoVE (divN a b) := fun n h => by have := (C04_div.1 h).1; cases this
theorem noVE_sDiv (c : F) (b : Node F) : NoVE (sDiv c b) := fun n h => by have := (C04_scalar_div.1 h).1; cases this

theorem noVE_partialN (a b : Node F) : NoVE (partialN a b) := by
  cases a
  case const => exact noVE_newConst _
  case var => exact noVE_newConst _
  case add => exact noVE_newConst _
  case cos i a =>
    simp only [partialN]
    exact .ite ((total_sinN _).noVE.bind noVE_negN) (noVE_newConst _)
  case sin i a =>
    simp only [partialN]
    exact .ite (total_cosN _).noVE (noVE_newConst _)
  case mul i a c =>
    simp only [partialN]
    exact .ite (noVE_pure _) (.ite (noVE_pure _) (noVE_newConst _))
  case div i a c =>
    simp only [partialN]
    exact .ite (noVE_sDiv _ _) (.ite ((noVE_negN _).bind fun _ => (noVE_mulN _ _).bind fun _ => noVE_divN _ _) (noVE_newConst _))

theorem noVE_pathProd (path : List (Node F)) : ∀ p : Node F, NoVE (pathProd p path) := by
  induction path with
  | nil => intro p; exact noVE_pure _
  | cons a path ih =>
    intro p
    cases path with
    | nil => exact noVE_pure _
    | cons b path =>
      simp only [pathProd]
      exact (noVE_partialN a b).bind fun _ => (noVE_mulN _ _).bind fun _ => ih _

theorem noVE_pathSum (ps : List (List (Node F))) : ∀ d : Node F, NoVE (pathSum d ps) := by
  induction ps with
  | nil => intro d; exact noVE_pure _
  | cons p ps ih =>
    intro d
    simp only [pathSum]
    exact (noVE_newConst _).bind fun _ => (noVE_pathProd _ _).bind fun _ => (noVE_addN _ _).bind fun _ => ih _

theorem noVE_iter {α : Type} (H : HashOrder) (l : List α) : NoVE (H.iter l) := fun n h => by simp [HashOrder.iter_error] at h

theorem noVE_unwrapM {α : Type} (o : Option α) : NoVE (unwrapM o) := by
  intro n h; cases o <;> simp [unwrapM, M.pure, M.panic] at h

theorem checkVars_error {vars : List (Node F)} {n : Nat} (hv : ∃ v ∈ vars, v.isVar = false) :
    checkVars vars n = .error .variableExpected := by
  have : vars.all Node.isVar = false := by simpa using hv
  simp [checkVars, this, M.panic]

theorem checkVars_ok {vars : List (Node F)} (hv : ¬ ∃ v ∈ vars, v.isVar = false) : checkVars vars = M.pure () := by
  have : vars.all Node.isVar = true := by simpa using hv
  simp [checkVars, this]

/-- C11: `derivatives`, `all_simple_paths` and `derivative` panic with "variable expected" if and only if some requested node
is not a variable (for arbitrary expressions and nodes). -/
theorem C11_variable_expected {H : HashOrder} {e x : Node F} {vars : List (Node F)} {n : Nat} :
    (derivatives H e vars n = .error .variableExpected ↔ ∃ v ∈ vars, v.isVar = false) ∧
    (allSimplePaths H e vars n = .error .variableExpected ↔ ∃ v ∈ vars, v.isVar = false) ∧
    (derivative H e x n = .error .variableExpected ↔ x.isVar = false) := by
  have h2 : ∀ vars : List (Node F), allSimplePaths H e vars n = .error .variableExpected ↔ ∃ v ∈ vars, v.isVar = false := by
    intro vars
    constructor
    · intro h
      by_contra hc
      simp only [allSimplePaths, checkVars_ok hc] at h
      exact ((noVE_pure ()).bind fun _ => (noVE_iter H _).bind fun _ => noVE_pure _) n h
    · intro hv
      simp only [allSimplePaths, M.bind_error]
      exact .inl (checkVars_error hv)
  have hasp : ∀ vars : List (Node F), (¬ ∃ v ∈ vars, v.isVar = false) → NoVE (allSimplePaths H e vars) := by
    intro vars hc n h
    simp only [allSimplePaths, checkVars_ok hc] at h
    exact ((noVE_pure ()).bind fun _ => (noVE_iter H _).bind fun _ => noVE_pure _) n h
  have hd : ∀ vars : List (Node F), (¬ ∃ v ∈ vars, v.isVar = false) → NoVE (derivatives H e vars) := by
    intro vars hc
    unfold derivatives
    rw [checkVars_ok hc]
    exact (noVE_pure ()).bind fun _ => (noVE_iter H _).bind fun _ => (hasp vars hc).bind fun _ =>
      noVE_mapL fun _ _ => (noVE_newConst _).bind fun _ => (noVE_unwrapM _).bind fun _ => (noVE_pathSum _ _).bind fun _ => noVE_pure _
  have h1 : ∀ vars : List (Node F), derivatives H e vars n = .error .variableExpected ↔ ∃ v ∈ vars, v.isVar = false := by
    intro vars
    constructor
    · intro h
      by_contra hc
      exact hd vars hc n h
    · intro hv
      simp only [derivatives, M.bind_error]
      exact .inl (checkVars_error hv)
  refine ⟨h1 vars, h2 vars, ?_⟩
  constructor
  · intro h
    by_contra hc
    have hc' : ¬ ∃ v ∈ [x], v.isVar = false := by simpa using hc
    exact ((hd [x] hc').bind fun _ => noVE_unwrapM _) n h
  · intro hx
    simp only [derivative, M.bind_error]
    exact .inl ((h1 [x]).2 ⟨x, by simp, hx⟩)

end

end Verif
