import Verif.Code.Cost
import Verif.Proofs.Size
import Verif.Proofs.Cells
import Verif.Props.Depth
import Verif.Props.PathCount

/-!
# C101: the length of derivatives and the cost of evaluation
-/

set_option linter.unusedSectionVars false
set_option linter.unusedSimpArgs false

namespace Verif

variable {F : Type} [FloatOps F]

/-- C101: `evaluate` is called once for each number, variable and function of the formula as it is written out. -/
theorem C101_evaluate (σ : Env F) (a : Node F) : a.evaluateC σ = (a.evaluate σ, a.size) := by
  induction a using Node.ind with
  | const i v => rfl
  | var i s k => rfl
  | add i args ih =>
    have key : ∀ (as : List (Node F)) (acc : F), (∀ a ∈ as, a.evaluateC σ = (a.evaluate σ, a.size)) →
        Node.evaluateC.sumC σ acc as = (Node.evaluate.sumFrom σ acc as, Node.size.total as) := by
      intro as
      induction as with
      | nil => intro acc _; rfl
      | cons b bs ihb =>
        intro acc h
        simp only [Node.evaluateC.sumC, Node.evaluate.sumFrom, Node.size.total, h b (by simp), ihb _ fun x hx => h x (by simp [hx])]
    simp only [Node.evaluateC, Node.evaluate, Node.size, key args zero ih, Nat.add_comm 1]
  | cos i b ih => simp only [Node.evaluateC, Node.evaluate, Node.size, ih, Nat.add_comm 1]
  | sin i b ih => simp only [Node.evaluateC, Node.evaluate, Node.size, ih, Nat.add_comm 1]
  | div i b c ihb ihc => simp only [Node.evaluateC, Node.evaluate, Node.size, ihb, ihc, Prod.mk.injEq, true_and]; omega
  | mul i b c ihb ihc => simp only [Node.evaluateC, Node.evaluate, Node.size, ihb, ihc, Prod.mk.injEq, true_and]; omega

/-- C101: an operator makes an expression that is at most three times as long as its operands together, and two more. -/
theorem C101_operators {a b r : Node F} {c : F} {n m : Nat} :
    (addN a b n = .ok (r, m) → r.size ≤ a.size + b.size + 2) ∧ (addS a c n = .ok (r, m) → r.size ≤ a.size + 3) ∧
    (subN a b n = .ok (r, m) → r.size ≤ a.size + 3 * b.size + 2) ∧ (mulN a b n = .ok (r, m) → r.size ≤ 3 * (a.size + b.size)) ∧
    (mulS c a n = .ok (r, m) → r.size ≤ 3 * a.size) ∧ (sMul c a n = .ok (r, m) → r.size ≤ 3 * a.size) ∧ (negN a n = .ok (r, m) → r.size ≤ 3 * a.size) ∧
    (divN a b n = .ok (r, m) → r.size ≤ a.size + b.size + 1) ∧ (divS a c n = .ok (r, m) → r.size ≤ a.size + 2) ∧ (sDiv c b n = .ok (r, m) → r.size ≤ b.size + 2) ∧
    (cosN a n = .ok (r, m) → r.size ≤ a.size + 1) ∧ (sinN a n = .ok (r, m) → r.size ≤ a.size + 1) := by
  have ha := width_size a
  have hb := width_size b
  refine ⟨size_addN a b n r m, size_addS a c n r m, size_subN a b n r m, fun h => ?_, fun h => ?_, fun h => ?_, fun h => ?_, fun h => ?_, size_divS a c n r m,
    fun h => (size_sDiv c b n r m h).1, fun h => (size_cosN a n r m h).1, fun h => (size_sinN a n r m h).1⟩
  · have := (size_mulN a b (w := max a.width b.width) (by omega) (by omega) n r m h).1; omega
  · have := (size_mulS c a n r m h).1; omega
  · have := (size_sMul c a n r m h).1; omega
  · have := (size_negN a n r m h).1; omega
  · have := (size_divN a b n r m h).1; omega

/-- C101: adding terms one after the other makes an expression that is as long as the terms together, and two more for each. -/
theorem C101_sum {s r : Node F} {ts : List (Node F)} {n m : Nat} (h : addTerms s ts n = .ok (r, m)) : r.size ≤ s.size + (ts.map Node.size).sum + 2 * ts.length := by
  have key : ∀ (ts : List (Node F)) (s : Node F), Post (addTerms s ts) (fun r => r.size ≤ s.size + (ts.map Node.size).sum + 2 * ts.length) := by
    intro ts
    induction ts with
    | nil => intro s; exact .pure (by simp)
    | cons t ts ih =>
      intro s
      refine (size_addN s t).bind fun s' hs' => (ih s').weaken fun r hr => ?_
      simp only [List.map_cons, List.sum_cons, List.length_cons]
      omega
  exact key ts s n r m h

/-- C101: how long a derivative is: one number, and for each place where the variable is written at most six times the length of the formula for each level above that place. -/
theorem C101_derivative {H : HashOrder} {e x d : Node F} {n m : Nat} (h : derivative H e x n = .ok (d, m)) :
    d.size ≤ 1 + occurrences x e * (3 + 6 * e.size * (e.depth - 1)) := by
  unfold derivative at h
  rw [M.bind_ok] at h
  obtain ⟨ds, k, h1, h2⟩ := h
  obtain ⟨-, vs, hp, h3⟩ := derivatives_ok h1
  have hs := size_derivatives e [x] _ _ _ h1
  have hx : setOf [x] = [x] := by simp [setOf, setInsert]
  rw [hx] at hp
  have : vs = [x] := List.perm_singleton.1 hp
  subst this
  have hl : ds.map Prod.fst = [x] := by
    simp only [M.mapL, M.bind_ok, M.pure_ok] at h3
    obtain ⟨p, _, ⟨d0, _, _, d1, _, _, rfl, -⟩, bs, _, ⟨rfl, -⟩, rfl, -⟩ := h3
    rfl
  obtain ⟨p, rfl⟩ : ∃ p, ds = [p] := by
    cases ds with
    | nil => cases hl
    | cons p ps => cases ps with
      | nil => exact ⟨p, rfl⟩
      | cons => simp at hl
  simp only [List.map_cons, List.map_nil, List.cons.injEq, and_true] at hl
  have := hs p (by simp)
  rw [hl] at this
  simp only [getN, hl, ptrEq_refl, if_true, unwrapM, M.pure_ok] at h2
  rw [h2.1]
  exact this

/-- C101, for several variables. -/
theorem C101_derivatives {H : HashOrder} {e : Node F} {xs : List (Node F)} {ds : List (Node F × Node F)} {n m : Nat} (h : derivatives H e xs n = .ok (ds, m)) :
    ∀ p ∈ ds, p.2.size ≤ 1 + occurrences p.1 e * (3 + 6 * e.size * (e.depth - 1)) :=
  size_derivatives e xs _ _ _ h

/-- C101: the gradient and the Hessian of an expression of length `s`: at most `derivBound s` and `derivBound (derivBound s)`, where `derivBound s` is a cubic polynomial. -/
theorem C101_node_components {H : HashOrder} {e : Node F} {c : NodeComp F} {n m : Nat} (h : e.stdComponents H n = .ok (c, m)) :
    c.phi = e ∧ (∀ p ∈ c.gphi, p.2.size ≤ derivBound e.size) ∧ ∀ p ∈ c.hphi, p.2.2.size ≤ derivBound (derivBound e.size) :=
  size_nodeComponents e _ _ _ h

/-- C101: all functions of the standard form of a model have a length that is bounded by a polynomial in the length of its longest formula, so evaluating one of them makes at
most that many calls of `evaluate`. -/
theorem C101_model {H : HashOrder} {mdl : Model F} {c : ModelComp F} {s n m : Nat} (hs : mdl.SizeIn s) (h : mdl.stdComponents H n = .ok (c, m)) :
    c.SizeIn (derivBound (derivBound (4 * s + 7))) :=
  size_modelComponents hs _ _ _ h

/-- C101: all that is about the formula as it is written out. After `k` squarings of a variable there are `k + 1` cells, and evaluating the last one makes `2 ^ (k + 1) - 1` calls. -/
theorem C101_squarings (H : HashOrder) (k : Nat) (σ : Env F) : ∃ (regs : List (Node F)) (e : Node F), runOps H [] (squarings F k) 0 = .ok (regs, k + 1) ∧
    regs[k]? = some e ∧ (e.evaluateC σ).2 + 1 = 2 ^ (k + 1) := by
  suffices h : ∃ (regs : List (Node F)) (e : Node F), runOps H [] (squarings F k) 0 = .ok (regs, k + 1) ∧ regs.length = k + 1 ∧ regs[k]? = some e ∧ e.isConstant = false ∧
      e.size + 1 = 2 ^ (k + 1) by
    obtain ⟨regs, e, h1, -, h2, -, h3⟩ := h
    exact ⟨regs, e, h1, h2, by rw [C101_evaluate]; exact h3⟩
  induction k with
  | zero => exact ⟨[.var 0 "x" .continuous], _, rfl, rfl, rfl, rfl, rfl⟩
  | succ k ih =>
    obtain ⟨regs, e, h1, h2, h4, h6, h7⟩ := ih
    have happ : ∀ (ops : List (Op F)) (op : Op F) (r : List (Node F)) (n : Nat),
        runOps H r (ops ++ [op]) n = M.bind (runOps H r ops) (fun r' => M.bind (op.exec H r') fun rs => M.pure (r' ++ rs)) n := by
      intro ops
      induction ops with
      | nil => intro op r n; rfl
      | cons o ops ih =>
        intro op r n
        simp only [List.cons_append, runOps, M.bind]
        cases o.exec H r n with
        | error p => rfl
        | ok a => exact ih op _ _
    have hs : squarings F (k + 1) = squarings F k ++ [.mul k k] := by
      simp [squarings, List.range_succ]
    have hmul : mulN e e = newMul e e := by
      rcases mulN_cases e e with ⟨i, v, rfl, he⟩ | ⟨j, v, rfl, he⟩ | ⟨_, _, he⟩
      · simp [Node.isConstant] at h6
      · simp [Node.isConstant] at h6
      · exact he
    have hx : (Op.mul k k).exec H regs (k + 1) = .ok ([.mul (k + 1) e e], k + 2) := by
      simp [Op.exec, h4, hmul, newMul_eq, M.bind, M.pure]
    refine ⟨regs ++ [.mul (k + 1) e e], .mul (k + 1) e e, ?_, by simp [h2], ?_, rfl, ?_⟩
    · rw [hs, happ, M.bind_ok_eq h1, M.bind_ok_eq hx]; rfl
    · rw [List.getElem?_append_right (by omega)]; simp [h2]
    · rw [Nat.pow_succ]; simp only [Node.size]; omega

/-- C94, from above: `derivative` creates at most that many cells (with the two units for the iterations over the set of variables): three, and for each place where the variable
is written a number that is quadratic in the number of levels and linear in the length of the formula. -/
theorem C94_cells_above {H : HashOrder} {e x d : Node F} {n m : Nat} (h : derivative H e x n = .ok (d, m)) :
    m ≤ n + 3 + occurrences x e * (3 + (e.depth - 1) * (2 * (1 + 6 * e.size * (e.depth - 1)) + 12 * e.size)) := by
  rw [derivative_eq (derivative_isVar h)] at h
  have hm := (cells_pathSum (e := e) _ (fun p hp => ⟨dfs_argPath e p (List.mem_filter.1 hp).1, dfs_head (List.mem_filter.1 hp).1⟩) _ _ _ _ h).1
  rw [dfs_count] at hm
  omega

/-- C94, from above, for the gradient and the Hessian of an expression. -/
theorem C94_node_components {H : HashOrder} {e : Node F} {c : NodeComp F} {n m : Nat} (h : e.stdComponents H n = .ok (c, m)) : m ≤ n + componentCells e.size :=
  (cells_nodeComponents e _ _ _ h).1

/-- C94, from above: the standard form of a model makes a number of cells that is a polynomial in the length of its longest formula, times the number of its constraints
and one for the objective. -/
theorem C94_model {H : HashOrder} {mdl : Model F} {c : ModelComp F} {s n m : Nat} (hs : mdl.SizeIn s) (h : mdl.stdComponents H n = .ok (c, m)) :
    m ≤ n + (mdl.constraints.length + 1) * rowCells s :=
  (cells_modelComponents hs _ _ _ h).1

/-- C94, from above, for the standard problem. -/
theorem C94_problem {H : HashOrder} {mdl : Model F} {p : StdProb F} {s n m : Nat} (hs : mdl.SizeIn s) (h : mdl.stdProblem H n = .ok (p, m)) :
    m ≤ n + (mdl.constraints.length + 1) * rowCells s + 5 :=
  (cells_problem hs _ _ _ h).1

/-- C94, from above, for `solve`: whatever the solver answers. -/
theorem C94_solve {H : HashOrder} {mdl mdl' : Model F} {solver : SolverFn F} {r : Except String Unit} {s n m : Nat} (hs : mdl.SizeIn s)
    (h : mdl.solve H solver n = .ok ((r, mdl'), m)) : m ≤ n + (mdl.constraints.length + 1) * rowCells s + 10 :=
  (cells_solve hs solver _ _ _ h).1

/-! ## Non-vacuity -/

/-- The model of C100: no formula is longer than 11, and its Hessian has an entry of length 84. -/
example : (worldOf cmdsDepth).m.SizeIn 11 ∧ (resultOf ((worldOf cmdsDepth).m.stdComponents HashOrder.listOrder) (wcount cmdsDepth)).map (fun c =>
    (c.constr.h.flatten.map fun e => e.2.2.size).foldl max 0) = some 84 := by
  refine ⟨⟨fun f hf => ?_, ?_⟩, by decide +kernel⟩
  · have h : (match (worldOf cmdsDepth).m.objective with | .minimize f => f.size | .maximize f => f.size | .empty => 0) ≤ 11 := by decide +kernel
    rcases hf with hf | hf <;> rw [hf] at h <;> exact h
  · decide +kernel

/-- The derivative of `x * x * y + x` by `x`: length 8 (`x * y + x * y + 1`), within the bound. -/
example : (match derivative HashOrder.listOrder ((regsOf [.var "x" .continuous, .var "y" .continuous, .mul 0 0, .mul 2 1, .add 3 0])[4]!)
      ((regsOf [.var "x" .continuous, .var "y" .continuous, .mul 0 0, .mul 2 1, .add 3 0])[0]!) 5 with
    | .ok (d, _) => d.size | .error _ => 0) = 8 := by
  rw [derivative_eq (by decide +kernel)]
  decide +kernel

/-- The standard form of that model: the number of cells it makes, within the bound of `C94_model`. -/
example : (match (worldOf cmdsDepth).m.stdComponents HashOrder.listOrder (wcount cmdsDepth) with
    | .ok (_, m) => decide (wcount cmdsDepth + 20 < m ∧ m ≤ wcount cmdsDepth + ((worldOf cmdsDepth).m.constraints.length + 1) * rowCells 11) | .error _ => false) = true := by
  decide +kernel

end Verif
