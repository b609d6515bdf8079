import Verif.Proofs.NoPanic
import Verif.Proofs.ExactRep
import Verif.Props.Expr2
import Verif.Props.ModelStd
import Verif.Props.CmdSolver
import Verif.Spec.ExampleD
import Verif.Spec.ExampleW

/-!
# C96: linear models are put into standard form and solved without panic
-/

set_option linter.unusedSectionVars false

namespace Verif

open Exact

section
variable {F : Type} [FloatOps F] {H : HashOrder} {W : World F} {n : Nat}

/-- Two facts about numbers that hold of doubles and of exact numbers: -1 is not 0, and `0 + v` is 0 only if `v` is. -/
structure SimpleLaws (F : Type) [FloatOps F] : Prop where
  neg : ((negOne : F) ==. zero) = false
  add : ∀ v : F, (zero +. v ==. zero) = true → (v ==. zero) = true

/-- C96, for all kinds of numbers: a model whose objective and constraints are affine. If putting it into standard form panics, then the assertion of `FunctionAdd::new` failed,
and some constraint of the model compares a number with a sum of a single term and numbers. -/
theorem C96_panics_partial (laws : SimpleLaws F) (hr : ReachableApiW H W n) (ha : W.m.AllAffine) {p : Panic} (h : W.m.stdProblem H n = .error p) :
    p = .addArgs ∧ ∃ c ∈ W.m.constraints, c.TermAgainstNumber := by
  rw [C23_total hr.reachable] at h
  obtain ⟨h0, hw⟩ := hr.inv
  obtain ⟨c, hc, n', he⟩ := components_error hw.model ha h
  obtain ⟨hp, hs⟩ := subN_error laws.neg laws.add (hw.model.cs c hc).1 (hw.model.cs c hc).2 he
  exact ⟨hp, c, hc, hs⟩

/-- C96: so a linear model in which no constraint compares a number with a sum of a single term and numbers has a standard form, and solving it returns whenever the solver
returns (with a solution that fits the problem, or an error). -/
theorem C96_solve_partial (laws : SimpleLaws F) (hr : ReachableApiW H W n) (ha : W.m.AllAffine) (hc : ∀ c ∈ W.m.constraints, ¬ c.TermAgainstNumber)
    {solver : SolverFn F} (hs : ∀ q, ∃ r, solver q = .ok r ∧ ∀ status sol, r = .ok (status, sol) → ∃ v ∈ q.views, sol.Fits v) :
    ∃ res mod' m', W.m.solve H solver n = .ok ((res, mod'), m') := by
  cases h : W.m.stdProblem H n with
  | error p =>
    obtain ⟨-, c, hc', h'⟩ := C96_panics_partial laws hr ha h
    exact absurd h' (hc c hc')
  | ok r =>
    obtain ⟨sp, m⟩ := r
    obtain ⟨r, h1, h2⟩ := hs sp.prob
    obtain ⟨res, mod', m', h3, -⟩ := C55_fits hr.reachable h h1 h2
    exact ⟨res, mod', m', h3⟩

/-- C96, the command-line solvers: the same, for a call of Clp or Cbc that returns (which it does if the solution file is well-formed, C48). -/
theorem C96_cmd_partial (laws : SimpleLaws F) (hr : ReachableApiW H W n) (ha : W.m.AllAffine) (hc : ∀ c ∈ W.m.constraints, ¬ c.TermAgainstNumber)
    {ps : Params F} {env : CmdEnv F} {d : Dir} {solver : SolverFn F} (hsolver : solver = clpFn ps env d ∨ solver = cbcFn ps env d)
    (hs : ∀ q, ∃ r, solver q = .ok r) : ∃ res mod' m', W.m.solve H solver n = .ok ((res, mod'), m') := by
  cases h : W.m.stdProblem H n with
  | error p =>
    obtain ⟨-, c, hc', h'⟩ := C96_panics_partial laws hr ha h
    exact absurd h' (hc c hc')
  | ok r =>
    obtain ⟨sp, m⟩ := r
    obtain ⟨r, h1⟩ := hs sp.prob
    obtain ⟨res, mod', m', h3, -⟩ := C55_cmd hr.reachable h hsolver h1
    exact ⟨res, mod', m', h3⟩

end

/-- Doubles satisfy the laws. -/
theorem C96_laws_double [Libm] : SimpleLaws F64 where
  neg := by
    rw [Bool.eq_false_iff]
    intro h
    have := (F64.eqz F64.negOne_value).1 h
    norm_num at this
  add := by
    intro v h
    rw [F64.eq_zero_iff] at h ⊢
    cases v with
    | nan => exact h
    | inf s => exact h
    | fin s q hq =>
      have hv : (F64.fin s q hq).HasValue (signedQ s q) := rfl
      have := F64.add_exact F64.zero_value hv (by rw [zero_add]; exact F64.double_of_value hv)
      rw [zero_add] at this
      rw [F64.value_unique h this]
      exact hv

section
variable {K : Type} [Field K] [LinearOrder K] [Trig K]

/-- Exact numbers satisfy the laws. -/
theorem C96_laws_exact : SimpleLaws (Option K) where
  neg := by simp [negOne]
  add := by intro v h; simpa using h

theorem osum_map_some (ks : List K) : osum (ks.map some) = some ks.sum := by
  induction ks with
  | nil => rfl
  | cons k ks ih => simp [ih]

/-- The numbers of a sum after scaling by -1. -/
theorem osum_neg {as bs : List (Node (Option K))} (h : List.Forall₂ NegTerm as bs) :
    osum ((bs.filter Node.isConstant).map (Node.evaluate fun _ => none)) =
      (negOne *. osum ((as.filter Node.isConstant).map (Node.evaluate fun _ => none))) := by
  induction h with
  | nil => simp [negOne]
  | @cons a b as bs h1 _ ih =>
    simp only [List.filter_cons, h1.1]
    cases hc : a.isConstant
    · simp [ih]
    · obtain ⟨i, v, rfl⟩ := isConst_exists hc
      obtain ⟨j, rfl⟩ := h1.2 i v rfl
      simp only [if_true, List.map_cons, osum_cons, Node.evaluate, ih, omul_add]

theorem subN_exact {h : Heap (Option K)} {a b : Node (Option K)} (hga : Good .api h a) (hgb : Good .api h b) (n : Nat) :
    (∃ p, subN a b n = .error p) ↔ SumOfItsNumbers a b ∨ SumOfItsNumbers b a := by
  have laws := C96_laws_exact (K := K)
  obtain ⟨nb, k, hs⟩ := total_sMul negOne b hgb.sumsOk n
  obtain ⟨g1, g2, g3⟩ := post_sMul_neg laws.neg b n nb k hs
  have hnum : ∀ {args : List (Node (Option K))} {w : K}, osum ((args.filter Node.isConstant).map (Node.evaluate fun _ => none)) = some w →
      ∃ ks : List K, (args.filter Node.isConstant).map (Node.evaluate fun _ => none) = ks.map some ∧ ks.sum = w := by
    intro args w hw
    obtain ⟨h1, h2⟩ := osum_eq_some hw
    refine ⟨((args.filter Node.isConstant).map (Node.evaluate fun _ => none)).map (·.getD 0), ?_, h2.symm⟩
    rw [List.map_map]
    conv_lhs => rw [← List.map_id ((args.filter Node.isConstant).map (Node.evaluate fun _ => none))]
    apply List.map_congr_left
    intro x hx
    obtain ⟨y, rfl⟩ := h1 x hx
    rfl
  -- the numbers of `-b` for a sum `b`
  have hb : ∀ {i args}, b = .add i args → ∀ c : Option K, addConsts c nb =
      (c +. (negOne *. osum ((args.filter Node.isConstant).map (Node.evaluate fun _ => none)))) := by
    intro i args he c
    rcases g3 i args he with ⟨h1, rfl⟩ | ⟨j, bs, rfl, hf⟩
    · rw [he, addConsts_add]
      rw [one_def, eq_one_iff] at h1
      rw [h1, oone_mul]
    · rw [addConsts_add, osum_neg hf]
  constructor
  · rintro ⟨p, he⟩
    obtain ⟨-, hcase⟩ := subN_error laws.neg laws.add hga hgb he
    obtain ⟨h1, h2, h3, h4, -⟩ := (subN_error_iff hs).1 he
    rw [zero_def, eq_zero_iff] at h4
    rcases hcase with ⟨⟨i, args, t, rfl, ht⟩, hbc⟩ | ⟨⟨i, args, t, rfl, ht⟩, hac⟩
    · left
      obtain ⟨j, v, rfl⟩ := isConst_exists hbc
      obtain ⟨j', rfl⟩ := g1.2 j v rfl
      rw [addConsts_add] at h4
      simp only [addConsts, ozero_add, add_eq_some] at h4
      obtain ⟨x, y, hx, hy, hxy⟩ := h4
      rw [mul_eq_some] at hy
      obtain ⟨m1, w, hm1, rfl, hw⟩ := hy
      have hm : m1 = -1 := by simpa [negOne] using hm1.symm
      subst hm
      obtain ⟨ks, hks, rfl⟩ := hnum hx
      have hsw : ks.sum = w := by linear_combination hxy + hw
      subst hsw
      refine ⟨i, j, args, t, ks, rfl, ht, hks, rfl, ?_⟩
      intro h0
      rw [h0] at h2
      simp [Node.isConstVal, negOne] at h2
    · right
      obtain ⟨j, v, rfl⟩ := isConst_exists hac
      rw [hb rfl] at h4
      simp only [addConsts, ozero_add, add_eq_some] at h4
      obtain ⟨w, y, rfl, hy, hxy⟩ := h4
      rw [mul_eq_some] at hy
      obtain ⟨m1, x, hm1, hx, hw⟩ := hy
      have hm : m1 = -1 := by simpa [negOne] using hm1.symm
      subst hm
      obtain ⟨ks, hks, rfl⟩ := hnum hx
      have hsw : ks.sum = w := by linear_combination -hxy - hw
      subst hsw
      refine ⟨i, j, args, t, ks, rfl, ht, hks, rfl, ?_⟩
      intro h0
      rw [h0] at h1
      simp [Node.isConstVal] at h1
  · have hl := terms_neg laws.neg hs
    rintro (⟨i, j, args, t, ks, rfl, ht, hks, rfl, hne⟩ | ⟨i, j, args, t, ks, rfl, ht, hks, rfl, hne⟩)
    · obtain ⟨j', rfl⟩ := g1.2 j _ rfl
      refine ⟨.addArgs, (subN_error_iff hs).2 ⟨rfl, ?_, ?_, ?_, rfl⟩⟩
      · simp [Node.isConstVal, negOne, hne]
      · simp [terms, ht]
      · rw [addConsts_add, hks, osum_map_some]
        simp [addConsts, negOne]
    · refine ⟨.addArgs, (subN_error_iff hs).2 ⟨?_, ?_, ?_, ?_, rfl⟩⟩
      · simp [Node.isConstVal, hne]
      · rcases g3 i args rfl with ⟨-, rfl⟩ | ⟨_, _, rfl, _⟩ <;> rfl
      · rw [List.length_append, hl]; simp [terms, ht]
      · rw [hb rfl, hks, osum_map_some]
        simp [addConsts, negOne]

/-- C96, exact numbers: putting a linear model into standard form panics if and only if the model has a constraint of the form `t + k ⋚ k` or `k ⋚ t + k`, where the number
`k` (possibly written as several numbers on the side of the sum) is not zero, and `t` is a single term. -/
theorem C96_exact {H : HashOrder} {W : World (Option K)} {n : Nat} (hr : ReachableApiW H W n) (ha : W.m.AllAffine) :
    (∃ p, W.m.stdProblem H n = .error p) ↔ ∃ c ∈ W.m.constraints, SumOfItsNumbers c.lhs c.rhs ∨ SumOfItsNumbers c.rhs c.lhs := by
  obtain ⟨h0, hw⟩ := hr.inv
  simp only [C23_total hr.reachable]
  constructor
  · rintro ⟨p, h⟩
    obtain ⟨c, hc, n', he⟩ := components_error hw.model ha h
    exact ⟨c, hc, (subN_exact (hw.model.cs c hc).1 (hw.model.cs c hc).2 n').1 ⟨p, he⟩⟩
  · rintro ⟨c, hc, h⟩
    exact components_panics ha hc (fun n' => (subN_exact (hw.model.cs c hc).1 (hw.model.cs c hc).2 n').2 h) n

end

/-- minimize 2x + y subject to 2x + y <= 3 and x <= y. -/
def exVW : List (Cmd Q) := [.expr (.var "x" .continuous), .expr (.var "y" .continuous), .expr (.scalarMul (some 2) 0), .expr (.add 2 1),
  .newModel, .minimize 3, .cmpNodeScalar .lessEqual 3 (some 3) "a", .addConstraint 0, .cmpNodeNode .lessEqual 0 1 "b", .addConstraint 1]

/-- minimize x subject to x + 5 <= 5. -/
def exVW' : List (Cmd Q) := [.expr (.var "x" .continuous), .expr (.addScalar 0 (some 5)), .newModel, .minimize 0,
  .cmpNodeScalar .lessEqual 1 (some 5) "a", .addConstraint 0]

/-- Checks of the hypotheses, for the examples. -/
def affineCheck (m : Model Q) : Bool :=
  (match m.objective with
   | .minimize f => f.stdProperties.affine
   | .maximize f => f.stdProperties.affine
   | .empty => true) && m.constraints.all fun c => c.lhs.stdProperties.affine && c.rhs.stdProperties.affine

theorem affineCheck_sound {m : Model Q} (h : affineCheck m = true) : m.AllAffine := by
  simp only [affineCheck, Bool.and_eq_true, List.all_eq_true] at h
  refine ⟨?_, h.2⟩
  intro f hf
  rcases hf with hf | hf <;> simpa [hf] using h.1

def twoTerms (e : Node Q) : Bool :=
  match e with
  | .add _ args => (args.filter fun a => !a.isConstant).length != 1
  | _ => true

theorem twoTerms_sound {e : Node Q} (h : twoTerms e = true) : ¬ OneTerm e := by
  rintro ⟨i, args, t, rfl, ht⟩
  simp [twoTerms, ht] at h

/-- A solver that answers with zeros. -/
def zeroSolver : SolverFn Q := fun q => match q.views with
  | v :: _ => .ok (.ok (.unknown, ⟨List.replicate v.nx (some 0), List.replicate v.na (some 0), List.replicate v.nf (some 0), List.replicate v.nx (some 0),
      List.replicate v.nx (some 0)⟩))
  | [] => .ok (.error "no")

/-- Non-vacuity: minimising `2 x + y` subject to `2 x + y <= 3` and `x <= y` meets the hypotheses of `C96_solve_partial`. -/
example : ReachableApiW HashOrder.listOrder (worldOf exVW) (wcount exVW) ∧ (worldOf exVW).m.AllAffine ∧ (worldOf exVW).m.constraints.length = 2 ∧
    (∀ c ∈ (worldOf exVW).m.constraints, ¬ c.TermAgainstNumber) ∧
    (∀ q : Problem Q, ∃ r, zeroSolver q = .ok r ∧ ∀ status sol, r = .ok (status, sol) → ∃ v ∈ q.views, sol.Fits v) := by
  refine ⟨runsW_reachable (by decide +kernel) (by decide +kernel), affineCheck_sound (by decide +kernel), by decide +kernel, ?_, ?_⟩
  · have h : ((worldOf exVW).m.constraints.all fun c => twoTerms c.lhs && twoTerms c.rhs) = true := by decide +kernel
    rw [List.all_eq_true] at h
    intro c hc h'
    have := h c hc
    rw [Bool.and_eq_true] at this
    rcases h' with h' | h'
    · exact twoTerms_sound this.1 h'.1
    · exact twoTerms_sound this.2 h'.1
  · intro q
    cases hq : q.views with
    | nil => exact ⟨.error "no", by simp only [zeroSolver, hq], by simp⟩
    | cons v vs =>
      refine ⟨_, by simp only [zeroSolver, hq]; rfl, ?_⟩
      intro status sol h
      simp only [Except.ok.injEq, Prod.mk.injEq] at h
      obtain ⟨-, rfl⟩ := h
      exact ⟨v, by simp, by simp [Sol.Fits]⟩

/-- C96 is false: the model that minimises `x` subject to `x + 5 <= 5` can be built, all of it is linear, and solving it panics, whatever the solver would do. -/
theorem C96_counterexample (solver : SolverFn Q) :
    ReachableApiW HashOrder.listOrder (worldOf exVW') (wcount exVW') ∧ (worldOf exVW').m.AllAffine ∧
    (∃ p, (worldOf exVW').m.stdProblem HashOrder.listOrder (wcount exVW') = .error p) ∧
    (∀ r m, (worldOf exVW').m.solve HashOrder.listOrder solver (wcount exVW') ≠ .ok (r, m)) := by
  have hr := runsW_reachable (cmds := exVW') (by decide +kernel) (by decide +kernel)
  have ha : (worldOf exVW').m.AllAffine := affineCheck_sound (by decide +kernel)
  have hp : ∃ p, (worldOf exVW').m.stdProblem HashOrder.listOrder (wcount exVW') = .error p := by
    refine (C96_exact hr ha).2 ?_
    have hc : (worldOf exVW').m.constraints =
        [⟨5, .add 3 [.var 0 "x" .continuous, .const 2 (some 5)], .lessEqual, .const 4 (some 5), "a"⟩] := by decide +kernel
    rw [hc]
    exact ⟨_, List.mem_singleton_self _, Or.inl ⟨3, 4, _, .var 0 "x" .continuous, [5], rfl, by decide +kernel, by decide +kernel, by simp, by norm_num⟩⟩
  refine ⟨hr, ha, hp, ?_⟩
  intro r m h
  obtain ⟨sp, k, hsp, -, -⟩ := solve_ok h
  obtain ⟨p, hp⟩ := hp
  rw [hp] at hsp
  cases hsp

end Verif
