import Verif.Proofs.DerivForm
import Verif.Props.PathCount

/-!
# C95: exactly when differentiating panics, for exact numbers
-/

set_option linter.unusedSectionVars false

namespace Verif

open Exact

variable {K : Type} [Field K] [LinearOrder K] [Trig K]

theorem fine_of_good {h : Heap (Option K)} {e y : Node (Option K)} (hg : Good .api h e) (hd : ∀ i, ¬ Occurs (.const i none) e) (hy : Occurs y e) : Fine y := by
  have hgy := hg.sub hy
  have tr : ∀ {a}, Occurs a y → Occurs a e := fun ha => ha.trans hy
  refine ⟨?_, ?_, ?_⟩
  · rintro i rfl; exact hd i hy
  · rintro i as rfl j hj; exact hd j (tr (.arg (show Node.const j none ∈ (Node.add i as).arguments from hj) (.refl _)))
  · intro hc
    rw [← terms_length]
    exact List.length_pos_iff.2 (terms_ne_nil (by simp) hgy hc)

theorem exact_of_good {H : HashOrder} {hp : Heap (Option K)} {n : Nat} (hn : HInv hp n) {e x : Node (Option K)} (hge : Good .api hp e) (hx : x.isVar = true)
    (hd : ∀ i, ¬ Occurs (.const i none) e) : (∃ p, derivative H e x n = .error p) ↔ NumbersCancel (places x e) := by
  rw [derivative_eq hx]
  have hn2 : HInv hp (n + 2) := fun i hi => hn i (by omega)
  obtain ⟨hp1, hle1, hn1, _, hg1, -, -⟩ := spec_newConst (l := .api) (v := (zero : Option K)) hn2 _ _ (newConst_eq zero (n + 2))
  rw [form_pathSum (fun q hq => dfs_argPath e q (List.mem_filter.1 hq).1)
    (fun q hq y hy z hz => fine_of_good hge hd (.trans (.arg hz (.refl _)) (dfs_occurs e q (List.mem_filter.1 hq).1 y hy))) hn1 hg1 (fine_const _ _)
    (fun q hq y hy => (hge.mono hle1).sub (dfs_occurs e q (List.mem_filter.1 hq).1 y hy))]
  rw [← places_eq x e fun y z hy hz h => ((hge.sub hy).ptrEq_iff (hge.sub hz)).1 h]
  simp [CancelsFrom, NumbersCancel, Node.form]

/-- C95, exact numbers: an expression built with the operators in which no undefined number is written. Differentiating it by a variable panics if and only if, when the products of the
partial derivatives on the ways to the places of the variable are added up, the last place first, a product that has a number as a term makes the numbers cancel while there is exactly one other
term. -/
theorem C95_exact {H : HashOrder} {regs : List (Node (Option K))} {n : Nat} (hr : ReachableApi H regs n) {e x : Node (Option K)} (he : e ∈ regs) (hx : x.isVar = true)
    (hd : ∀ i, ¬ Occurs (.const i none) e) : (∃ p, derivative H e x n = .error p) ↔ NumbersCancel (places x e) := by
  obtain ⟨hp, hn, hg⟩ := hr.inv
  exact exact_of_good hn (hg e he) hx hd

/-- C95, exact numbers: a derivative that is returned has exactly the terms of these products: none are merged, and the numbers are added up. -/
theorem C95_terms {H : HashOrder} {regs : List (Node (Option K))} {n m : Nat} (hr : ReachableApi H regs n) {e x d : Node (Option K)} (he : e ∈ regs) (hx : x.isVar = true)
    (hd : ∀ i, ¬ Occurs (.const i none) e) (h : derivative H e x n = .ok (d, m)) :
    d.form = ⟨((places x e).map Form.terms).sum, ((places x e).map Form.number).sum⟩ := by
  obtain ⟨hp, hn, hg⟩ := hr.inv
  rw [derivative_eq hx] at h
  have hge := hg e he
  have := (form_pathSum_ok (fun q hq => dfs_argPath e q (List.mem_filter.1 hq).1)
    (fun q hq y hy z hz => fine_of_good hge hd (.trans (.arg hz (.refl _)) (dfs_occurs e q (List.mem_filter.1 hq).1 y hy))) (fine_const _ _) h).2
  rw [← places_eq x e fun y z hy hz h => ((hge.sub hy).ptrEq_iff (hge.sub hz)).1 h] at this
  rw [this]
  simp [Node.form]

/-- C95, exact numbers, several variables at once: it panics if and only if it does for one of them. -/
theorem C95_exact_batch {H : HashOrder} {regs : List (Node (Option K))} {n : Nat} (hr : ReachableApi H regs n) {e : Node (Option K)} (he : e ∈ regs) {vars : List (Node (Option K))}
    (hx : ∀ x ∈ vars, x.isVar = true) (hd : ∀ i, ¬ Occurs (.const i none) e) :
    (∃ p, derivatives H e vars n = .error p) ↔ ∃ x ∈ vars, NumbersCancel (places x e) := by
  constructor
  · rintro ⟨p, h⟩
    rcases C09_panics (H' := H) (n' := n) h with ⟨-, x, hx', hf⟩ | ⟨-, x, hx', h1⟩
    · rw [hx x hx'] at hf; cases hf
    · exact ⟨x, hx', (C95_exact hr he (hx x hx') hd).1 ⟨_, h1⟩⟩
  · rintro ⟨x, hx', hc⟩
    obtain ⟨p, h1⟩ := (C95_exact hr he (hx x hx') hd).2 hc
    cases h : derivatives H e vars n with
    | error p => exact ⟨p, rfl⟩
    | ok r =>
      exfalso
      obtain ⟨d, m, h2⟩ := (C09_returns (H := H) (H' := H) (n' := n)).1 ⟨r.1, r.2, h⟩ x hx'
      rw [h1] at h2; cases h2

/-- C95, exact numbers, models: if the objective to be minimised is nonlinear and the numbers cancel for one of its variables, then the model has no standard form and solving it panics,
whatever the solver. -/
theorem C95_exact_solve {H H' : HashOrder} {W : World (Option K)} {n : Nat} (hr : ReachableApiW H' W n) {f x : Node (Option K)} (ho : W.m.objective = .minimize f)
    (hf : f.stdProperties.affine = false) (hx : x.isVar = true) (hxf : Occurs x f) (hd : ∀ i, ¬ Occurs (.const i none) f) (hc : NumbersCancel (places x f)) (solver : SolverFn (Option K)) :
    (∀ sp m, W.m.stdProblem H n ≠ .ok (sp, m)) ∧ ∀ r m, W.m.solve H solver n ≠ .ok (r, m) := by
  have key : ∀ sp m, W.m.stdProblem H n ≠ .ok (sp, m) := by
    intro sp m hsp
    obtain ⟨hp, hw⟩ := hr.inv
    have hg := hw.model.min f ho
    obtain ⟨p, hp'⟩ := (exact_of_good (H := H) hw.heap hg hx hd).2 hc
    simp only [Model.stdProblem, Model.stdComponents, M.bind_ok] at hsp
    obtain ⟨_, _, ⟨obj, k1, hobj, -⟩, -⟩ := hsp
    simp only [Model.objComponents, ho, Node.stdComponents] at hobj
    rw [if_neg (by simp [hf]), M.bind_ok] at hobj
    obtain ⟨vars, k2, hv, hobj⟩ := hobj
    rw [M.bind_ok] at hobj
    obtain ⟨ds, k3, hds, -⟩ := hobj
    obtain ⟨y, hy, hyx⟩ := (stdProperties_keys f).2.2 x hx hxf
    have hyf := ((stdProperties_keys f).2.1 y hy).2
    have e := ((hg.sub hyf).ptrEq_iff (hg.sub hxf)).1 hyx
    subst e
    obtain ⟨d, m', h⟩ := (C09_returns (H := H) (H' := H) (n' := n)).1 ⟨_, _, hds⟩ y ((HashOrder.iter_perm hv).mem_iff.2 hy)
    rw [hp'] at h; cases h
  refine ⟨key, fun r m h => ?_⟩
  obtain ⟨sp, k, hsp, -, -⟩ := solve_ok h
  exact key sp k hsp

/-! ### Examples -/

/-- No undefined number is written, as a test. -/
def allDefined : Node (Option K) → Bool
  | .const _ v => v.isSome
  | .var .. => true
  | .add _ args => allDefined.terms args
  | .cos _ a => allDefined a
  | .sin _ a => allDefined a
  | .mul _ a b => allDefined a && allDefined b
  | .div _ a b => allDefined a && allDefined b
where
  /-- for the terms of a sum -/
  terms : List (Node (Option K)) → Bool
    | [] => true
    | a :: as => allDefined a && terms as

theorem allDefined_arg {e a : Node (Option K)} (h : allDefined e = true) (ha : a ∈ e.arguments) : allDefined a = true := by
  cases e
  case add i args =>
    simp only [allDefined] at h
    simp only [Node.arguments] at ha
    induction args with
    | nil => simp at ha
    | cons b bs ih =>
      simp only [allDefined.terms, Bool.and_eq_true] at h
      rcases List.mem_cons.1 ha with rfl | ha
      · exact h.1
      · exact ih h.2 ha
  all_goals simp_all [Node.arguments, allDefined]
  all_goals (rcases ha with rfl | rfl <;> simp [h])

theorem allDefined_ok {e : Node (Option K)} (h : allDefined e = true) (i : Nat) : ¬ Occurs (.const i none) e := by
  intro ho
  generalize hy : Node.const i none = y at ho
  induction ho with
  | refl => subst hy; simp [allDefined] at h
  | arg ha _ ih => exact ih (allDefined_arg h ha)

/-- `x * y + 3 * y + (-3) * y`: the same function as `exR'`, with the terms in another order. -/
def exR'' : List (Op Q) :=
  [.var "y" .continuous, .var "x" .continuous, .mul 1 0, .scalarMul (some 3) 0, .scalarMul (some (-3)) 0, .add 2 3, .add 5 4]

theorem numbersCancel_iff (ps : List (Form ℚ)) :
    NumbersCancel ps ↔ ∃ k < ps.length, ((ps.take (k + 1)).map Form.terms).sum = 1 ∧ ((ps.take (k + 1)).map Form.number).sum = 0 ∧ ∃ p ∈ ps[k]?, p.number ≠ 0 := by
  constructor
  · rintro ⟨b, p, a, rfl, h1, h2, h3⟩
    have e : (b ++ p :: a).take (b.length + 1) = b ++ [p] := by
      rw [List.take_append]; simp
    exact ⟨b.length, by simp, by rw [e]; exact h1, by rw [e]; exact h2, p, by simp, h3⟩
  · rintro ⟨k, hk, h1, h2, p, hp, h3⟩
    have hp' : ps[k]? = some p := hp
    have e : ps.take (k + 1) = ps.take k ++ [p] := by rw [List.take_add_one, hp']; rfl
    refine ⟨ps.take k, p, ps.drop (k + 1), ?_, by rw [← e]; exact h1, by rw [← e]; exact h2, h3⟩
    rw [List.append_cons, ← e, List.take_append_drop]

/-- Of `3 * y + x * y + (-3) * y` the products are `-3`, `x` and `3`, which cancel at the last step; of `x * y + 3 * y + (-3) * y` they are `-3`, `3` and `x`, which do not. -/
example : places ((regsOf exR')[0]!) ((regsOf exR')[6]!) = [⟨0, -3⟩, ⟨1, 0⟩, ⟨0, 3⟩] ∧ NumbersCancel (places ((regsOf exR')[0]!) ((regsOf exR')[6]!)) ∧
    places ((regsOf exR'')[0]!) ((regsOf exR'')[6]!) = [⟨0, -3⟩, ⟨0, 3⟩, ⟨1, 0⟩] ∧ ¬ NumbersCancel (places ((regsOf exR'')[0]!) ((regsOf exR'')[6]!)) := by
  have h1 : places ((regsOf exR')[0]!) ((regsOf exR')[6]!) = [⟨0, -3⟩, ⟨1, 0⟩, ⟨0, 3⟩] := by decide +kernel
  have h2 : places ((regsOf exR'')[0]!) ((regsOf exR'')[6]!) = [⟨0, -3⟩, ⟨0, 3⟩, ⟨1, 0⟩] := by decide +kernel
  refine ⟨h1, ?_, h2, ?_⟩
  · rw [h1, numbersCancel_iff]; exact ⟨2, by decide +kernel⟩
  · rw [h2, numbersCancel_iff]; decide +kernel

/-- Of `y * (x + 5) - 5 * y` they are `-5` and `x + 5`. -/
example : places ((regsOf exR)[0]!) ((regsOf exR)[5]!) = [⟨0, -5⟩, ⟨1, 5⟩] := by decide +kernel

/-- So the derivative of `x * y + 3 * y + (-3) * y` by `y` is returned, for every iteration order. -/
example (H : HashOrder) : ReachableApi HashOrder.listOrder (regsOf exR'') (countOf exR'') ∧ ∃ r, derivative H ((regsOf exR'')[6]!) ((regsOf exR'')[0]!) (countOf exR'') = .ok r := by
  have hr : ReachableApi HashOrder.listOrder (regsOf exR'') (countOf exR'') := runs_reachableApi (by decide +kernel) (by decide +kernel)
  refine ⟨hr, ?_⟩
  rw [derivative_eq (by decide +kernel), ← derivative_eq (H := HashOrder.listOrder) (by decide +kernel)]
  cases h : derivative HashOrder.listOrder ((regsOf exR'')[6]!) ((regsOf exR'')[0]!) (countOf exR'') with
  | ok r => exact ⟨r, rfl⟩
  | error p =>
    have h2 : places ((regsOf exR'')[0]!) ((regsOf exR'')[6]!) = [⟨0, -3⟩, ⟨0, 3⟩, ⟨1, 0⟩] := by decide +kernel
    have := (C95_exact hr (get_mem (by decide +kernel)) (by decide +kernel) (fun i hi => ?_)).1 ⟨p, h⟩
    · exact absurd (h2 ▸ this) (by rw [numbersCancel_iff]; decide +kernel)
    · exact allDefined_ok (by decide +kernel) i hi

/-- `C95_exact_solve` applied to the model that minimises `y * (x + 5) - 5 * y`. -/
example (H : HashOrder) (solver : SolverFn Q) : ∀ r m, (worldOf exRW).m.solve H solver (wcount exRW) ≠ .ok (r, m) := by
  have hm : (worldOf exRW).m.objective = .minimize exRf := by
    have h1 : (match (worldOf exRW).m.objective with | .minimize f => decide (f = exRf) | _ => false) = true := by decide +kernel
    revert h1
    cases (worldOf exRW).m.objective <;> simp
  have hpl : places (.var 0 "y" .continuous) exRf = [⟨0, -5⟩, ⟨1, 5⟩] := by decide +kernel
  have hr : ReachableApiW HashOrder.listOrder (worldOf exRW) (wcount exRW) := runsW_reachable (by decide +kernel) (by decide +kernel)
  refine (C95_exact_solve (x := .var 0 "y" .continuous) hr hm (by decide +kernel) rfl ?_
    (allDefined_ok (by decide +kernel)) ?_ solver).2
  · exact .arg (a := .mul 5 (.var 0 "y" .continuous) (.add 4 [.var 1 "x" .continuous, .const 3 (some 5)])) (by simp [exRf, Node.arguments])
      (.arg (a := .var 0 "y" .continuous) (by simp [Node.arguments]) (.refl _))
  · rw [hpl, numbersCancel_iff]; exact ⟨1, by decide +kernel⟩

end Verif
