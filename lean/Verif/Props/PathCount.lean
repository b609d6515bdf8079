import Verif.Proofs.PathCount
import Verif.Props.Diff
import Verif.Props.ModelStd
import Verif.Spec.ExampleD
import Verif.Spec.ExampleW

/-!
# C94: the cost of differentiation, C95: when differentiation panics
-/

set_option linter.unusedSectionVars false

namespace Verif

variable {F : Type}

/-! ## C94 -/

/-- C94: `all_simple_paths` for a variable returns one path for each place where the variable is written in the formula. -/
theorem C94_paths {H : HashOrder} {e x : Node F} {n m : Nat} {r : List (Node F × List (List (Node F)))}
    (h : allSimplePaths H e [x] n = .ok (r, m)) : ∃ ps, r = [(x, ps)] ∧ ps.length = occurrences x e := by
  obtain ⟨-, vs, hp, -, rfl⟩ := allSimplePaths_ok h
  have h1 : setOf [x] = [x] := by simp [setOf, setInsert]
  rw [h1] at hp
  rw [List.perm_singleton.1 hp]
  exact ⟨_, rfl, dfs_count x e⟩

/-- C94, for several variables: one entry for each, with one path for each place. -/
theorem C94_all_paths {H : HashOrder} {e : Node F} {xs : List (Node F)} {n m : Nat} {r : List (Node F × List (List (Node F)))}
    (h : allSimplePaths H e xs n = .ok (r, m)) : ∀ p ∈ r, p.1 ∈ xs ∧ p.2.length = occurrences p.1 e := by
  obtain ⟨-, vs, hp, -, rfl⟩ := allSimplePaths_ok h
  intro p hp'
  obtain ⟨v, hv, rfl⟩ := List.mem_map.1 hp'
  exact ⟨setOf_mem (hp.mem_iff.1 hv), dfs_count v e⟩

variable [FloatOps F]

/-- C94: `derivative` creates more cells than there are places where the variable is written (two units of the counter are the two iterations over the set of variables, not
cells). -/
theorem C94_cells {H : HashOrder} {regs : List (Node F)} {n m : Nat} (hr : Reachable H regs n) {e x d : Node F} (he : e ∈ regs)
    (h : derivative H e x n = .ok (d, m)) : n + 2 + occurrences x e < m := by
  obtain ⟨hp, hn, hg⟩ := hr.inv
  rw [derivative_eq (derivative_isVar h)] at h
  have hn2 : HInv hp (n + 2) := fun i hi => hn i (by omega)
  obtain ⟨hp1, hle1, hn1, _, hg1, -, -⟩ := spec_newConst (l := .raw) (v := (zero : F)) hn2 _ _ (newConst_eq zero (n + 2))
  have := pathSum_cells hn1 hg1 (fun p hp y hy => ((hg e he).mono hle1).sub (dfs_occurs e p (List.mem_filter.1 hp).1 y hy)) h
  rw [dfs_count] at this
  omega

/-- The last handle of the squaring program. -/
theorem squarings_run (H : HashOrder) (k : Nat) : ∃ (regs : List (Node F)) (x e : Node F), runOps H [] (squarings F k) 0 = .ok (regs, k + 1) ∧
    regs.length = k + 1 ∧ regs[0]? = some x ∧ regs[k]? = some e ∧ x.isVar = true ∧ e.isConstant = false ∧ occurrences x e = 2 ^ k := by
  induction k with
  | zero =>
    refine ⟨[.var 0 "x" .continuous], _, _, rfl, rfl, rfl, rfl, rfl, rfl, ?_⟩
    simp [occurrences, ptrEq_refl]
  | succ k ih =>
    obtain ⟨regs, x, e, h1, h2, h3, h4, h5, h6, h7⟩ := ih
    have happ : ∀ (ops : List (Op F)) (op : Op F) (r : List (Node F)) (n : Nat),
        runOps H r (ops ++ [op]) n = M.bind (runOps H r ops) (fun r' => M.bind (op.exec H r') fun rs => M.pure (r' ++ rs)) n := by
      intro ops
      induction ops with
      | nil => intro op r n; rfl
      | cons o ops ih =>
        intro op r n
        simp only [List.cons_append, runOps, M.bind]
        cases o.exec H r n with
        | error p => rfl
        | ok a => exact ih op _ _
    have hs : squarings F (k + 1) = squarings F k ++ [.mul k k] := by
      simp [squarings, List.range_succ]
    have hmul : mulN e e = newMul e e := by
      rcases mulN_cases e e with ⟨i, v, rfl, he⟩ | ⟨j, v, rfl, he⟩ | ⟨_, _, he⟩
      · simp [Node.isConstant] at h6
      · simp [Node.isConstant] at h6
      · exact he
    have hx : (Op.mul k k).exec H regs (k + 1) = .ok ([.mul (k + 1) e e], k + 2) := by
      simp [Op.exec, h4, hmul, newMul_eq, M.bind, M.pure]
    refine ⟨regs ++ [.mul (k + 1) e e], x, .mul (k + 1) e e, ?_, by simp [h2], ?_, ?_, h5, rfl, ?_⟩
    · rw [hs, happ, M.bind_ok_eq h1, M.bind_ok_eq hx]; rfl
    · rw [List.getElem?_append_left (by omega)]; exact h3
    · rw [List.getElem?_append_right (by omega)]; simp [h2]
    · simp only [occurrences, h7, Nat.pow_succ]; omega

/-- C94: the work of differentiation is exponential in the size of the program that built the expression: after `k` squarings of a variable, `k + 1` cells exist, and whoever
calls `derivative` with the last one makes more than `2 ^ k` further cells. -/
theorem C94_squarings (H : HashOrder) (k : Nat) : ∃ (regs : List (Node F)) (x e : Node F), runOps H [] (squarings F k) 0 = .ok (regs, k + 1) ∧
    regs[0]? = some x ∧ regs[k]? = some e ∧ ∀ d m, derivative H e x (k + 1) = .ok (d, m) → k + 1 + 2 ^ k < m := by
  obtain ⟨regs, x, e, h1, -, h3, h4, -, -, h7⟩ := squarings_run (F := F) H k
  refine ⟨regs, x, e, h1, h3, h4, fun d m h => ?_⟩
  have := C94_cells ⟨_, h1⟩ (List.mem_of_getElem? h4) h
  rw [h7] at this
  omega

/-- Non-vacuity of C94: after four squarings (five cells), the derivative is returned and the counter is at 87, and 16 places are written. -/
example : (match derivative HashOrder.listOrder ((regsOf (squarings Q 4))[4]!) ((regsOf (squarings Q 4))[0]!) 5 with
      | .ok (_, m) => m | .error _ => 0) = 87 ∧
    occurrences ((regsOf (squarings Q 4))[0]!) ((regsOf (squarings Q 4))[4]!) = 16 := by
  refine ⟨?_, by decide +kernel⟩
  rw [derivative_eq (by decide +kernel)]
  decide +kernel

/-! ## C95 -/

/-- C95: if differentiating an expression built with the operators by a variable panics, then the panic is the assertion of `FunctionAdd::new`, and the variable is written
both as a term with a numeric coefficient and at a place with a factor that is not a number. -/
theorem C95_panics {H : HashOrder} {regs : List (Node F)} {n : Nat} (h0 : ((zero : F) ==. zero) = true) (hr : ReachableApi H regs n)
    {e x : Node F} (he : e ∈ regs) (hx : x.isVar = true) {p : Panic} (h : derivative H e x n = .error p) :
    p = .addArgs ∧ LinearPlace x e ∧ NonlinearPlace x e := by
  refine ⟨C07_only_panic hr he hx h, ?_⟩
  obtain ⟨hp, hn, hg⟩ := hr.inv
  rw [derivative_eq hx] at h
  have hn2 : HInv hp (n + 2) := fun i hi => hn i (by omega)
  obtain ⟨hp1, hle1, hn1, _, hg1, -, -⟩ := spec_newConst (l := .api) (v := (zero : F)) hn2 _ _ (newConst_eq zero (n + 2))
  have harg : ∀ q ∈ (dfs e).filter (endsAt x), ArgPath q := fun q hq => dfs_argPath e q (List.mem_filter.1 hq).1
  have hgood : ∀ q ∈ (dfs e).filter (endsAt x), ∀ y ∈ q, Good .api _ y := fun q hq y hy =>
    ((hg e he).mono hle1).sub (dfs_occurs e q (List.mem_filter.1 hq).1 y hy)
  constructor
  · by_contra hc
    obtain ⟨r, m, h1, -⟩ := nz_pathSum h0 harg (fun q hq => by
      by_contra hq'
      exact hc ((dfs_place x e q (List.mem_filter.1 hq).1 (List.mem_filter.1 hq).2).1 (by simpa using hq'))) hn1 hg1
      (.inr ⟨_, rfl⟩) hgood
    rw [h1] at h; cases h
  · by_contra hc
    obtain ⟨r, m, h1, -⟩ := const_pathSum harg (fun q hq => by
      by_contra hq'
      exact hc ((dfs_place x e q (List.mem_filter.1 hq).1 (List.mem_filter.1 hq).2).2 (by simpa using hq'))) hn1 hg1
      rfl hgood
    rw [h1] at h; cases h

theorem LinearPlace.pos {x e : Node F} (h : LinearPlace x e) : 0 < occurrences x e := by
  induction h with
  | here h => simp [occurrences, h]
  | @add i args a ha _ ih =>
    simp only [occurrences]
    induction args with
    | nil => simp at ha
    | cons b bs ih2 =>
      simp only [occurrences.occs]
      rcases List.mem_cons.1 ha with rfl | ha
      · omega
      · have := ih2 ha; omega
  | mulLeft _ _ ih => simp only [occurrences]; omega
  | mulRight _ _ ih => simp only [occurrences]; omega
  | div _ _ ih => simp only [occurrences]; omega

/-- A variable that is written at places of both kinds is written twice. -/
theorem two_places {x e : Node F} (h : NonlinearPlace x e) : LinearPlace x e → 2 ≤ occurrences x e := by
  have hpos : ∀ {e : Node F}, NonlinearPlace x e → 0 < occurrences x e := by
    intro e h
    induction h with
    | @inAdd i args a ha _ ih =>
      simp only [occurrences]
      induction args with
      | nil => simp at ha
      | cons b bs ih2 =>
        simp only [occurrences.occs]
        rcases List.mem_cons.1 ha with rfl | ha
        · omega
        · have := ih2 ha; omega
    | _ => simp only [occurrences]; omega
  have hconst : ∀ {a : Node F}, a.isConstant = true → occurrences x a = 0 := by
    intro a ha; cases a <;> simp_all [Node.isConstant, occurrences]
  induction h with
  | @inAdd i args a ha hna ih =>
    intro hl
    cases hl with
    | @add _ _ b hb hlb =>
      have hb' := hlb.pos
      have ha' := hpos hna
      simp only [occurrences]
      clear i
      induction args with
      | nil => simp at ha
      | cons c cs ih2 =>
        simp only [occurrences.occs]
        have hmem : ∀ {d : Node F} {ds : List (Node F)}, d ∈ ds → occurrences x d ≤ occurrences.occs x ds := by
          intro d ds
          induction ds with
          | nil => simp
          | cons f fs ih => intro hd; simp only [occurrences.occs]; rcases List.mem_cons.1 hd with rfl | hd
                            · omega
                            · have := ih hd; omega
        rcases List.mem_cons.1 ha with rfl | ha1 <;> rcases List.mem_cons.1 hb with rfl | hb1
        · have := ih hlb; omega
        · have := hmem hb1; omega
        · have := hmem ha1; omega
        · have := ih2 ha1 hb1; omega
  | cos h => intro hl; cases hl
  | sin h => intro hl; cases hl
  | mulLeft hb h =>
    intro hl
    cases hl with
    | mulLeft hc _ => rw [hc] at hb; cases hb
    | mulRight hc _ => rw [hconst hc] at h; omega
  | mulRight hb h =>
    intro hl
    cases hl with
    | mulLeft hc _ => rw [hconst hc] at h; omega
    | mulRight hc _ => rw [hc] at hb; cases hb
  | dividend hb h => intro hl; cases hl with | div hc _ => rw [hc] at hb; cases hb
  | divisor h => intro hl; cases hl with | div hc _ => rw [hconst hc] at h; omega
  | inLeft hn ih =>
    intro hl
    cases hl with
    | mulLeft hc hl => have := ih hl; simp only [occurrences]; omega
    | mulRight hc hl => have := hpos hn; rw [hconst hc] at this; omega
  | inRight hn ih =>
    intro hl
    cases hl with
    | mulLeft hc hl => have := hpos hn; rw [hconst hc] at this; omega
    | mulRight hc hl => have := ih hl; simp only [occurrences]; omega
  | inDividend hn ih => intro hl; cases hl with | div hc hl => have := ih hl; simp only [occurrences]; omega

/-- C95 (the restriction is that the variable is written at most once; the full statement is false, see `C95_counterexample`): differentiation returns. -/
theorem C95_once_partial {H : HashOrder} {regs : List (Node F)} {n : Nat} (h0 : ((zero : F) ==. zero) = true) (hr : ReachableApi H regs n)
    {e x : Node F} (he : e ∈ regs) (hx : x.isVar = true) (ho : occurrences x e ≤ 1) : ∃ d m, derivative H e x n = .ok (d, m) := by
  cases h : derivative H e x n with
  | ok r => exact ⟨r.1, r.2, rfl⟩
  | error p =>
    obtain ⟨-, h1, h2⟩ := C95_panics h0 hr he hx h
    have := two_places h2 h1
    omega

/-- C95 (the restriction is that no place of the variable has a factor that is not a number): differentiation returns a constant. -/
theorem C95_linear_partial {H : HashOrder} {regs : List (Node F)} {n : Nat} (hr : ReachableApi H regs n)
    {e x : Node F} (he : e ∈ regs) (hx : x.isVar = true) (ho : ¬ NonlinearPlace x e) :
    ∃ d m, derivative H e x n = .ok (d, m) ∧ d.isConstant = true := by
  obtain ⟨hp, hn, hg⟩ := hr.inv
  rw [derivative_eq hx]
  have hn2 : HInv hp (n + 2) := fun i hi => hn i (by omega)
  obtain ⟨hp1, hle1, hn1, _, hg1, -, -⟩ := spec_newConst (l := .api) (v := (zero : F)) hn2 _ _ (newConst_eq zero (n + 2))
  refine const_pathSum (fun q hq => dfs_argPath e q (List.mem_filter.1 hq).1) (fun q hq => ?_) hn1 hg1 rfl
    (fun q hq y hy => ((hg e he).mono hle1).sub (dfs_occurs e q (List.mem_filter.1 hq).1 y hy))
  by_contra hq'
  exact ho ((dfs_place x e q (List.mem_filter.1 hq).1 (List.mem_filter.1 hq).2).2 (by simpa using hq'))

/-- C95 (the restriction is that no place of the variable has a numeric coefficient): differentiation returns. -/
theorem C95_nonlinear_partial {H : HashOrder} {regs : List (Node F)} {n : Nat} (h0 : ((zero : F) ==. zero) = true) (hr : ReachableApi H regs n)
    {e x : Node F} (he : e ∈ regs) (hx : x.isVar = true) (ho : ¬ LinearPlace x e) : ∃ d m, derivative H e x n = .ok (d, m) := by
  cases h : derivative H e x n with
  | ok r => exact ⟨r.1, r.2, rfl⟩
  | error p => exact absurd (C95_panics h0 hr he hx h).2.1 ho

/-! ### The full statement is false -/

/-- `y * (x + 5) - 5 * y`. -/
def exR : List (Op Q) := [.var "y" .continuous, .var "x" .continuous, .addScalar 1 (some 5), .mul 0 2, .scalarMul (some 5) 0, .sub 3 4]

/-- `3 * y + x * y + (-3) * y`: no sum contains a number. -/
def exR' : List (Op Q) :=
  [.var "y" .continuous, .var "x" .continuous, .scalarMul (some 3) 0, .mul 1 0, .scalarMul (some (-3)) 0, .add 2 3, .add 5 4]

/-- C95 is false: `y * (x + 5) - 5 * y` and `3 * y + x * y + (-3) * y` can be built, and their derivatives by `y` panic, for every iteration order. -/
theorem C95_counterexample (H : HashOrder) :
    (ReachableApi HashOrder.listOrder (regsOf exR) (countOf exR) ∧ (regsOf exR)[5]! ∈ regsOf exR ∧ ((regsOf exR)[0]!).isVar = true ∧
      derivative H ((regsOf exR)[5]!) ((regsOf exR)[0]!) (countOf exR) = .error .addArgs) ∧
    (ReachableApi HashOrder.listOrder (regsOf exR') (countOf exR') ∧ (regsOf exR')[6]! ∈ regsOf exR' ∧ ((regsOf exR')[0]!).isVar = true ∧
      derivative H ((regsOf exR')[6]!) ((regsOf exR')[0]!) (countOf exR') = .error .addArgs) := by
  refine ⟨⟨runs_reachableApi (by decide +kernel) (by decide +kernel), get_mem (by decide +kernel), by decide +kernel, ?_⟩,
    ⟨runs_reachableApi (by decide +kernel) (by decide +kernel), get_mem (by decide +kernel), by decide +kernel, ?_⟩⟩
  · rw [derivative_eq (by decide +kernel)]; exact of_panicOf (by decide +kernel)
  · rw [derivative_eq (by decide +kernel)]; exact of_panicOf (by decide +kernel)

theorem mapL_each {α β : Type} {f : α → M β} : ∀ {as : List α} {n m : Nat} {bs : List β}, M.mapL f as n = .ok (bs, m) →
    ∀ a ∈ as, ∃ b n' m', f a n' = .ok (b, m') := by
  intro as
  induction as with
  | nil => simp
  | cons a as ih =>
    intro n m bs h x hx
    simp only [M.mapL, M.bind_ok] at h
    obtain ⟨b, k, h1, bs', k2, h2, -⟩ := h
    rcases List.mem_cons.1 hx with rfl | hx
    · exact ⟨b, n, k, h1⟩
    · exact ih h2 x hx

/-- The model that minimises `y * (x + 5) - 5 * y`. -/
def exRW : List (Cmd Q) := exR.map .expr ++ [.newModel, .minimize 5]

/-- The objective of that model. -/
def exRf : Node Q :=
  .add 10 [.mul 5 (.var 0 "y" .continuous) (.add 4 [.var 1 "x" .continuous, .const 3 (some 5)]),
    .mul 9 (.const 8 (some (-1))) (.mul 7 (.const 6 (some 5)) (.var 0 "y" .continuous))]

theorem exRf_derivatives (H : HashOrder) (vars : List (Node Q)) (hy : Node.var 0 "y" .continuous ∈ vars)
    (hi : ∀ v ∈ vars, v = .var 0 "y" .continuous ∨ v = .var 1 "x" .continuous) (n : Nat) : ∀ r m, derivatives H exRf vars n ≠ .ok (r, m) := by
  intro r m h
  obtain ⟨-, vs, hp, h⟩ := derivatives_ok h
  obtain ⟨y', hy', he⟩ := setOf_has hy
  have : y' = .var 0 "y" .continuous := by
    rcases hi y' (setOf_mem hy') with rfl | rfl
    · rfl
    · simp [Node.ptrEq, Node.tag, Node.id] at he
  subst this
  obtain ⟨d, n', m', h⟩ := mapL_each h _ (hp.mem_iff.2 hy')
  simp [exRf, dfs, dfs.dfsL, endsAt, Node.ptrEq, Node.tag, Node.id, pathSum, pathProd, partialN, M.bind, mulN, mulCL, addN, newConst, M.fresh,
    Node.isConstVal, M.pure, gather, gatherArgs, finishAdd, newAdd, M.panic, show ¬ ((-1 : ℚ) = 1) by norm_num] at h

/-- C95: the user has no part in it: solving a model panics (whatever the solver would do) because the objective is differentiated. The model has the objective
`y * (x + 5) - 5 * y` and no constraints. -/
theorem C95_solve_counterexample (H : HashOrder) (solver : SolverFn Q) : ReachableApiW HashOrder.listOrder (worldOf exRW) (wcount exRW) ∧
    (∀ r m, (worldOf exRW).m.solve H solver (wcount exRW) ≠ .ok (r, m)) := by
  refine ⟨runsW_reachable (by decide +kernel) (by decide +kernel), ?_⟩
  intro r m h
  obtain ⟨sp, k, hsp, -, -⟩ := solve_ok h
  simp only [Model.stdProblem, Model.stdComponents, M.bind_ok] at hsp
  obtain ⟨_, _, ⟨obj, k1, hobj, -⟩, -⟩ := hsp
  have hm : (worldOf exRW).m.objective = .minimize exRf := by
    have h1 : (match (worldOf exRW).m.objective with | .minimize f => decide (f = exRf) | _ => false) = true := by decide +kernel
    revert h1
    cases (worldOf exRW).m.objective <;> simp
  simp only [Model.objComponents, hm, Node.stdComponents] at hobj
  rw [if_neg (by decide +kernel), M.bind_ok] at hobj
  obtain ⟨vars, k2, hv, hobj⟩ := hobj
  rw [M.bind_ok] at hobj
  obtain ⟨ds, k3, hd, -⟩ := hobj
  have hvs : exRf.stdProperties.a.map Prod.fst = [.var 0 "y" .continuous, .var 1 "x" .continuous] := by decide +kernel
  have hp := HashOrder.iter_perm hv
  rw [hvs] at hp
  exact exRf_derivatives H vars (hp.mem_iff.2 (by simp)) (fun v hv => by simpa using hp.mem_iff.1 hv) _ _ _ hd

/-- Non-vacuity of `C95_panics`: its hypotheses hold of the counterexample. Non-vacuity of `C95_once_partial`: in the same expression, `x` is written once, and the derivative
by `x` is `y`. -/
example : ((zero : Q) ==. zero) = true ∧ occurrences ((regsOf exR)[0]!) ((regsOf exR)[5]!) = 2 ∧ ((regsOf exR)[1]!).isVar = true ∧
    occurrences ((regsOf exR)[1]!) ((regsOf exR)[5]!) = 1 ∧
    (resultOf (derivative HashOrder.listOrder ((regsOf exR)[5]!) ((regsOf exR)[1]!)) (countOf exR)) = some ((regsOf exR)[0]!) := by
  refine ⟨by decide +kernel, by decide +kernel, by decide +kernel, by decide +kernel, ?_⟩
  rw [show resultOf (derivative HashOrder.listOrder _ _) _ = resultOf (pathSum _ _) _ from by
    unfold resultOf; rw [derivative_eq (by decide +kernel)]]
  decide +kernel

/-- `2 * x - x / 3` and `x * x + sin(x)`. -/
def exR2 : List (Op Q) :=
  [.var "x" .continuous, .scalarMul (some 2) 0, .divScalar 0 (some 3), .sub 1 2, .mul 0 0, .sin 0, .add 4 5]

/-- Non-vacuity of `C95_linear_partial` and `C95_nonlinear_partial`. -/
example : ReachableApi HashOrder.listOrder (regsOf exR2) (countOf exR2) ∧ (regsOf exR2)[3]! ∈ regsOf exR2 ∧ (regsOf exR2)[6]! ∈ regsOf exR2 ∧
    ((regsOf exR2)[0]!).isVar = true ∧ ¬ NonlinearPlace ((regsOf exR2)[0]!) ((regsOf exR2)[3]!) ∧ ¬ LinearPlace ((regsOf exR2)[0]!) ((regsOf exR2)[6]!) ∧
    occurrences ((regsOf exR2)[0]!) ((regsOf exR2)[3]!) = 2 ∧ occurrences ((regsOf exR2)[0]!) ((regsOf exR2)[6]!) = 3 := by
  refine ⟨runs_reachableApi (by decide +kernel) (by decide +kernel), get_mem (by decide +kernel), get_mem (by decide +kernel), by decide +kernel, ?_, ?_,
    by decide +kernel, by decide +kernel⟩
  · have h0 : (regsOf exR2)[0]! = .var 0 "x" .continuous := by decide +kernel
    have h3 : (regsOf exR2)[3]! = .add 7 [.mul 2 (.const 1 (some 2)) (.var 0 "x" .continuous),
      .mul 6 (.const 5 (some (-1))) (.div 4 (.var 0 "x" .continuous) (.const 3 (some 3)))] := by decide +kernel
    rw [h0, h3]
    intro h
    cases h with
    | inAdd ha h =>
      simp only [List.mem_cons, List.not_mem_nil, or_false] at ha
      rcases ha with rfl | rfl <;> cases h <;> (try simp_all [Node.isConstant, occurrences])
      all_goals (rename_i h; cases h)
      all_goals (try simp_all [Node.isConstant, occurrences])
      all_goals (rename_i h; cases h)
  · have h0 : (regsOf exR2)[0]! = .var 0 "x" .continuous := by decide +kernel
    have h6 : (regsOf exR2)[6]! = .add 10 [.mul 8 (.var 0 "x" .continuous) (.var 0 "x" .continuous), .sin 9 (.var 0 "x" .continuous)] := by decide +kernel
    rw [h0, h6]
    intro h
    cases h with
    | add ha h =>
      simp only [List.mem_cons, List.not_mem_nil, or_false] at ha
      rcases ha with rfl | rfl <;> cases h <;> simp_all [Node.isConstant]

/-! ### Several variables at once -/

section
open Node
variable {F : Type} [FloatOps F]

omit [FloatOps F] in
theorem endsAt_congr {x y : Node F} (h : x.ptrEq y = true) : endsAt x = endsAt y := by
  funext p
  unfold endsAt
  cases p.getLast? with
  | none => rfl
  | some z =>
    simp only [Node.ptrEq, Bool.and_eq_true, beq_iff_eq] at h ⊢
    simp [h.1, h.2]

omit [FloatOps F] in
theorem isVar_congr {x y : Node F} (h : x.ptrEq y = true) : x.isVar = y.isVar := by
  simp only [Node.ptrEq, Bool.and_eq_true, beq_iff_eq] at h
  have := h.1
  cases x <;> cases y <;> simp_all [tag, isVar]

/-- Everything `derivatives` does when it is given variables: one sum over paths per variable of the set. -/
theorem derivatives_eq {H : HashOrder} {e : Node F} {vars : List (Node F)} {n : Nat} (hv : ∀ v ∈ vars, v.isVar = true) :
    ∃ vs : List (Node F), vs.Perm (setOf vars) ∧ derivatives H e vars n =
      M.mapL (fun v => M.bind (newConst zero) fun d0 => M.bind (pathSum d0 ((dfs e).filter (endsAt v))) fun d =>
        M.pure (v, d)) vs (n + 2) := by
  have hc : ∀ k, checkVars vars k = .ok ((), k) := fun k => by
    unfold checkVars; rw [if_pos (by simpa using hv)]; rfl
  obtain ⟨vs, hi⟩ : ∃ vs, H.iter (setOf vars) n = .ok (vs, n + 1) := ⟨_, rfl⟩
  obtain ⟨vs', hi'⟩ : ∃ vs', H.iter (setOf vars) (n + 1) = .ok (vs', n + 2) := ⟨_, rfl⟩
  have hp := HashOrder.iter_perm hi
  have hp' := HashOrder.iter_perm hi'
  refine ⟨vs, hp, ?_⟩
  have ha : allSimplePaths H e vars (n + 1) = .ok (vs'.map fun v => (v, (dfs e).filter (endsAt v)), n + 2) := by
    simp only [allSimplePaths, M.bind, hc, hi', M.pure, searchPaths_eq]
    simp [pending]
  simp only [derivatives, M.bind, hc, hi, ha]
  have hnd : NodupP vs' := (setOf_nodup vars).perm hp'.symm
  have hmem : ∀ v ∈ vs, getN (vs'.map fun v => (v, (dfs e).filter (endsAt v))) v = some ((dfs e).filter (endsAt v)) :=
    fun v hv => getN_map hnd (hp'.mem_iff.2 (hp.mem_iff.1 hv))
  clear ha hi hi' hp hp' hc hv
  generalize n + 2 = k
  induction vs generalizing k with
  | nil => rfl
  | cons a vs ih =>
    have ih' := funext (ih (fun v hv => hmem v (by simp [hv])))
    simp only [M.mapL, hmem a (by simp), ih']
    rfl

/-- A loop returns if each step returns, whatever the addresses. -/
theorem mapL_returns {α β : Type} {f : α → M β} : ∀ {as : List α}, (∀ a ∈ as, ∀ n, ∃ b m, f a n = .ok (b, m)) →
    ∀ n, ∃ bs m, M.mapL f as n = .ok (bs, m) := by
  intro as
  induction as with
  | nil => intro _ n; exact ⟨[], n, rfl⟩
  | cons a as ih =>
    intro h n
    obtain ⟨b, m, h1⟩ := h a (by simp) n
    obtain ⟨bs, m', h2⟩ := ih (fun a' ha => h a' (by simp [ha])) m
    exact ⟨b :: bs, m', by simp [M.mapL, M.bind, M.pure, h1, h2]⟩

/-- A loop fails only if one of its steps fails. -/
theorem mapL_fails {α β : Type} {f : α → M β} {p : Panic} : ∀ {as : List α} {n : Nat}, M.mapL f as n = .error p →
    ∃ a ∈ as, ∃ n', f a n' = .error p := by
  intro as
  induction as with
  | nil => intro n h; cases h
  | cons a as ih =>
    intro n h
    simp only [M.mapL, M.bind_error] at h
    rcases h with h | ⟨b, m, -, h | ⟨bs, m', -, h⟩⟩
    · exact ⟨a, by simp, n, h⟩
    · obtain ⟨a', h1, h2⟩ := ih h; exact ⟨a', by simp [h1], h2⟩
    · cases h

/-- C09: `derivatives` returns if and only if `derivative` returns for each of the variables. -/
theorem C09_returns {H H' : HashOrder} {e : Node F} {vars : List (Node F)} {n n' : Nat} :
    (∃ r m, derivatives H e vars n = .ok (r, m)) ↔ ∀ x ∈ vars, ∃ d m, derivative H' e x n' = .ok (d, m) := by
  constructor
  · rintro ⟨r, m, h⟩ x hx
    obtain ⟨-, h2, h3, h4⟩ := C09_batch (H' := H') (n' := n') h
    obtain ⟨p, hp, hpx⟩ := h2 x hx
    obtain ⟨d, m', h5, -⟩ := h4 p hp
    refine ⟨d, m', ?_⟩
    have hv := derivative_isVar h5
    rw [derivative_eq hv, endsAt_congr hpx] at h5
    rw [derivative_eq (by rw [← isVar_congr hpx]; exact hv)]
    exact h5
  · intro h
    have hv : ∀ v ∈ vars, v.isVar = true := fun v hv => by
      obtain ⟨d, m, h1⟩ := h v hv
      exact derivative_isVar h1
    obtain ⟨vs, hp, he⟩ := derivatives_eq (H := H) (e := e) (n := n) hv
    rw [he]
    refine mapL_returns (fun v hvs k => ?_) _
    have hm := setOf_mem (hp.mem_iff.1 hvs)
    obtain ⟨d, m, h1⟩ := h v hm
    rw [derivative_eq (hv v hm)] at h1
    obtain ⟨d', m', h2, -⟩ := (sim_pathSum ((dfs e).filter (endsAt v)) (sim_const.2 rfl :
        Sim (.const (n' + 2) zero) (.const k zero))).ok h1 (k + 1)
    exact ⟨(v, d'), m', by simp [M.bind, newConst_eq, h2, M.pure]⟩

/-- C09: if `derivatives` panics, either something that is not a variable was requested, or `derivative` panics in the same way for one of the variables. -/
theorem C09_panics {H H' : HashOrder} {e : Node F} {vars : List (Node F)} {n n' : Nat} {p : Panic}
    (h : derivatives H e vars n = .error p) :
    (p = .variableExpected ∧ ∃ x ∈ vars, x.isVar = false) ∨
      (∀ x ∈ vars, x.isVar = true) ∧ ∃ x ∈ vars, derivative H' e x n' = .error p := by
  by_cases hv : ∀ v ∈ vars, v.isVar = true
  · right
    refine ⟨hv, ?_⟩
    obtain ⟨vs, hp, he⟩ := derivatives_eq (H := H) (e := e) (n := n) hv
    rw [he] at h
    obtain ⟨v, hvs, k, h1⟩ := mapL_fails h
    have hm := setOf_mem (hp.mem_iff.1 hvs)
    refine ⟨v, hm, ?_⟩
    rw [derivative_eq (hv v hm)]
    simp only [M.bind_error, newConst_eq] at h1
    rcases h1 with h1 | ⟨d0, k1, h0, h1⟩
    · cases h1
    · simp only [Except.ok.injEq, Prod.mk.injEq] at h0
      obtain ⟨rfl, rfl⟩ := h0
      rcases h1 with h1 | ⟨_, _, _, h1⟩
      · exact (sim_pathSum ((dfs e).filter (endsAt v)) (sim_const.2 rfl : Sim (.const k zero) (.const (n' + 2) zero))).error h1 (n' + 3)
      · cases h1
  · left
    push Not at hv
    obtain ⟨x, hx, hxv⟩ := hv
    have hb : x.isVar = false := by simpa using hxv
    refine ⟨?_, x, hx, hb⟩
    have hc : checkVars vars n = .error .variableExpected := by
      unfold checkVars
      rw [if_neg]
      · rfl
      · simp only [List.all_eq_true, not_forall]; exact ⟨x, hx, hxv⟩
    simp only [derivatives, M.bind, hc] at h
    cases h; rfl

/-- C95, for several variables at once: a panic is only possible if one of them is written both with a numeric coefficient and with a factor that
is not a number. -/
theorem C95_batch {H : HashOrder} {regs : List (Node F)} {n : Nat} (h0 : ((zero : F) ==. zero) = true) (hr : ReachableApi H regs n)
    {e : Node F} (he : e ∈ regs) {vars : List (Node F)} (hx : ∀ x ∈ vars, x.isVar = true) {p : Panic}
    (h : derivatives H e vars n = .error p) : p = .addArgs ∧ ∃ x ∈ vars, LinearPlace x e ∧ NonlinearPlace x e := by
  rcases C09_panics (H' := H) (n' := n) h with ⟨-, x, hx', hf⟩ | ⟨-, x, hx', h1⟩
  · rw [hx x hx'] at hf; cases hf
  · obtain ⟨h2, h3, h4⟩ := C95_panics h0 hr he (hx x hx') h1
    exact ⟨h2, x, hx', h3, h4⟩

/-- Non-vacuity of C09_returns, C09_panics and C95_batch: of `y * (x + 5) - 5 * y` the derivative by `x` is returned (also when it is asked for twice),
but not the derivatives by both. -/
example : (∃ r m, derivatives HashOrder.listOrder ((regsOf exR)[5]!) [(regsOf exR)[1]!, (regsOf exR)[1]!] (countOf exR) = .ok (r, m)) ∧
    ∃ p, derivatives HashOrder.listOrder ((regsOf exR)[5]!) [(regsOf exR)[1]!, (regsOf exR)[0]!] (countOf exR) = .error p := by
  constructor
  · refine (C09_returns (H' := HashOrder.listOrder) (n' := 0)).2 fun x hx => ?_
    obtain rfl : x = (regsOf exR)[1]! := by simpa using hx
    rw [derivative_eq (by decide +kernel)]
    have : panicOf (pathSum (.const (0 + 2) zero) ((dfs ((regsOf exR)[5]!)).filter (endsAt ((regsOf exR)[1]!)))) (0 + 3) = none := by
      decide +kernel
    revert this
    simp only [panicOf]
    split
    · rename_i r h; intro _; exact ⟨r.1, r.2, h⟩
    · intro h; cases h
  · cases h : derivatives HashOrder.listOrder ((regsOf exR)[5]!) [(regsOf exR)[1]!, (regsOf exR)[0]!] (countOf exR) with
    | error p => exact ⟨p, rfl⟩
    | ok r =>
      obtain ⟨d, m, h1⟩ := (C09_returns (H' := HashOrder.listOrder) (n' := countOf exR)).1 ⟨r.1, r.2, h⟩ ((regsOf exR)[0]!) (by simp)
      rw [(C95_counterexample HashOrder.listOrder).1.2.2.2] at h1
      cases h1

end

end Verif
