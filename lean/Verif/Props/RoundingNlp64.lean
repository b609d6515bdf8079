import Verif.Spec.RoundingNlp64
import Verif.Props.Rounding64
import Verif.Props.RoundingSolve64
import Verif.Proofs.EvalSpec

/-!
# C83: nonlinear models in double precision
-/

namespace Verif

set_option linter.unusedSectionVars false

section
variable [Libm] {H : HashOrder} {W : World F64} {n n' m₀ : ℕ} {sp : StdProb F64} {solver : SolverFn F64} {mod' : Model F64}

theorem evaluate_var_of {x : Node F64} (hx : x.isVar = true) {σ : Env F64} {c : F64} (hc : σ x.id = some c) : x.evaluate σ = c := by
  cases x <;> simp [Node.isVar] at hx
  simp only [Node.id] at hc
  simp only [Node.evaluate, hc]
  try rfl

/-- The function of a nonlinear row, as a formula. -/
theorem SpFacts.row64 {l : Level} {hp : Heap F64} {mod : Model F64} {comp : ModelComp F64} {e : Node F64}
    {ps : List (Piece F64)} {cols : List (Node F64)} {xes : List (Node F64 × F64)} {ves : List (Node F64 × Nat)}
    (hf : SpFacts H l hp n m₀ mod comp e ps cols xes ves sp) {p : Piece F64} (hpm : p ∈ ps) (hnl : p.isNl = true) {σ : Env F64}
    {v w m m' t : ℝ} {a b : ℕ} (hl : Writes64 σ p.c.lhs v m a) (hr : Writes64 σ p.c.rhs w m' b)
    (ht : match p.slack with | some s => ∃ c, σ s.id = some c ∧ c.Is t | none => t = 0)
    (hR : InRange (m + m' + |t|) (a + b + 5)) :
    ∃ z, (p.fn.evaluate σ).Is z ∧ |z - (v - w - t)| ≤ ((1 + 2 ^ (-53 : ℤ)) ^ (a + b + 5) - 1) * (m + m' + |t|) := by
  obtain ⟨n1, m1, -, -, hok⟩ := hf.mf.piece hpm
  obtain ⟨k, hk⟩ := hok.exp
  have hw := Writes64.sub hl hr (hR.mono (by linarith [abs_nonneg t]) (by omega)) hk
  unfold Piece.fn
  unfold Piece.slack at ht
  cases hkd : p.kind with
  | bound x => simp [Piece.isNl, hkd] at hnl
  | linEq x => simp [Piece.isNl, hkd] at hnl
  | linIneq x => simp [Piece.isNl, hkd] at hnl
  | nlEq =>
    rw [hkd] at ht
    simp only at ht ⊢
    subst ht
    rw [hok.prop.1]
    obtain ⟨z, h1, h2⟩ := C79_error hw
    refine ⟨z, h1, ?_⟩
    simp only [sub_zero, abs_zero, add_zero]
    refine h2.trans (mul_le_mul_of_nonneg_right ?_ ?_)
    · have := pow_le_pow_right₀ (show (1 : ℝ) ≤ 1 + 2 ^ (-53 : ℤ) by norm_num) (show a + b + 2 ≤ a + b + 5 by omega)
      linarith
    · obtain ⟨h3, h4⟩ := R64.writes64_rep hw
      obtain ⟨x, -, h5, -⟩ := h3.eval h4
      exact (abs_nonneg _).trans h5.2
  | nlIneq s f m1 =>
    rw [hkd] at ht
    simp only at ht ⊢
    obtain ⟨c, hc, hct⟩ := ht
    obtain ⟨-, ⟨k1, k2, h2⟩, -⟩ := hok.nlIneq s f m1 hkd
    have hsl : p.slack = some s := by rw [Piece.slack, hkd]
    have hvar : s.isVar = true := hf.cok.var _ (hf.newCol.2 ⟨p, hpm, hsl⟩).1
    obtain ⟨i, nm, kd, rfl⟩ : ∃ i nm kd, s = .var i nm kd := by
      cases s <;> simp [Node.isVar] at hvar
      exact ⟨_, _, _, rfl⟩
    have hs : Writes64 σ (.var i nm kd) t |t| 1 := by
      refine .var (n := i) (n' := i + 1) (s := nm) (kind := kd) (c := c) rfl hc hct (hR.mono ?_ (by omega))
      obtain ⟨h3, h4⟩ := R64.writes64_rep hw
      obtain ⟨x, -, h5, -⟩ := h3.eval h4
      have := (abs_nonneg _).trans h5.2
      linarith
    rw [hok.prop.1] at h2
    have := Writes64.sub hw hs (hR.mono le_rfl (by omega)) h2
    exact C79_error this

/-- **C83** Write a nonlinear model with the operators in double precision, and let a solver evaluate the problem at any point, after any history of calls.
The objective value that it gets is within the rounding error of the formula from the exact value of the formula at the point, and the value of each nonlinear
row is within the rounding error from the exact value of `lhs - rhs - slack`. -/
theorem C83_values (hr : ReachableW H W n) (h : W.m.stdProblem H n = .ok (sp, m₀))
    (hc : (∃ q, sp.prob = .nlp q) ∨ ∃ q, sp.prob = .minlp q) {q q' : Minlp F64} (hq : q ∈ sp.prob.views)
    {ops : List (ProbOp F64)} (hops : runProb q ops = .ok q') {xs : List F64} (hx : xs.length = sp.var2index.length)
    {σ : Env F64} (hσ : σ = pointOf sp.var2index xs) :
    ∃ r, q'.evaluate xs = .ok r ∧
      (∀ v m k, W.m.Minimises64 σ v m k → ∃ z, r.buf.phi.Is z ∧ |z - v| ≤ ((1 + 2 ^ (-53 : ℤ)) ^ k - 1) * m) ∧
      r.buf.f.length = sp.jindex2constr.length ∧
      ∀ k c, (k, c) ∈ sp.jindex2constr → ∀ v w m m' a b t, Writes64 σ c.lhs v m a → Writes64 σ c.rhs w m' b → sp.SlackIs n k σ t →
        InRange (m + m' + |t|) (a + b + 5) →
        ∃ y z, r.buf.f[k]? = some y ∧ y.Is z ∧ |z - (v - w - t)| ≤ ((1 + 2 ^ (-53 : ℤ)) ^ (a + b + 5) - 1) * (m + m' + |t|) := by
  obtain ⟨hp, k, comp, e, ps, cols, xes, ves, hf, -⟩ := hr.facts h
  have hlen : xs.length = cols.length := by rw [hx, hf.v2i]; simp
  rw [hf.v2i, pointOf_eq] at hσ
  subst hσ
  rcases hf.life with ⟨-, hl, -⟩ | ⟨-, -, hi⟩
  · rcases hl with ⟨a, ha⟩ | ⟨a, ha⟩ <;> rcases hc with ⟨b, hb⟩ | ⟨b, hb⟩ <;> rw [ha] at hb <;> cases hb
  have hi' := (hi q hq).run hf.cok hf.cmpOk hf.vesP hops
  rw [hi'.evaluate hf.cok hf.cmpOk hf.vesP (by omega)]
  obtain ⟨k1, k2, hk⟩ := hf.mf.objComp
  obtain ⟨kc, -, hch⟩ := hf.mf.chain
  refine ⟨_, rfl, ?_, ?_, ?_⟩
  · intro v m k hm
    simp only [evalBuf, (stdComponents_prop hk).1]
    cases hm with
    | minimize ho hw =>
      rw [hf.mf.objMin _ ho]
      exact C79_error hw
    | maximize ho hw hR =>
      obtain ⟨j, j', hj⟩ := hf.mf.objMax _ ho
      exact C79_error (.neg hw hR hj)
    | empty ho =>
      obtain ⟨i, rfl⟩ := hf.mf.objEmpty ho
      exact ⟨0, by simpa [Node.evaluate] using F64.is_zero, by simp⟩
  · simp [evalBuf, hf.mf.f_eq, hf.jindex]
  · intro k c hkc v w m m' a b t hl hr' hs hR
    simp only [hf.jindex, List.mem_map, List.mem_filter, Prod.mk.injEq] at hkc
    obtain ⟨p, ⟨hp', hnl⟩, rfl, rfl⟩ := hkc
    have hts : match p.slack with | some s => ∃ c, pointEnv cols xs s.id = some c ∧ c.Is t | none => t = 0 := by
      obtain ⟨n1, m1, -, -, hok⟩ := hf.mf.piece hp'
      unfold StdProb.SlackIs at hs
      cases hfd : sp.var2index.find? (fun e => decide (n ≤ e.1.id) && e.1.name == slackNameJ p.jrow) with
      | some en =>
        rw [hfd] at hs
        have h1 := List.find?_some hfd
        have h2 := List.mem_of_find?_eq_some hfd
        simp only [Bool.and_eq_true, decide_eq_true_eq, beq_iff_eq] at h1
        have h3 := hf.mem_v2i.1 (show (en.1, en.2) ∈ sp.var2index from h2)
        rw [hf.slackJ hp' hnl (List.mem_of_getElem? h3) h1.1 h1.2]
        have hm := List.mem_of_getElem? h3
        have hvar := hf.cok.var _ hm
        have hc' := (hf.cok.col hm).1
        have henv := pointEnv_col hf.cok hm xs
        rw [List.getElem?_eq_getElem (by omega)] at henv
        refine ⟨_, henv, ?_⟩
        simp only at hs
        rw [evaluate_var_of hvar henv] at hs
        exact hs
      | none =>
        rw [hfd] at hs
        cases hs' : p.slack with
        | some s =>
          obtain ⟨hsc, hsn⟩ := hf.newCol.2 ⟨p, hp', hs'⟩
          obtain ⟨i, hi⟩ := List.mem_iff_getElem?.1 hsc
          have hm : (s, i) ∈ sp.var2index := hf.mem_v2i.2 hi
          rw [List.find?_eq_none] at hfd
          have := hfd _ hm
          simp only [Bool.and_eq_true, decide_eq_true_eq, beq_iff_eq, not_and] at this
          exact absurd ((hok.slack_nl hnl).2 s hs').2 (this hsn)
        | none => exact hs
    obtain ⟨z, h1, h2⟩ := hf.row64 hp' hnl hl hr' hts hR
    refine ⟨_, z, ?_, h1, h2⟩
    simp only [evalBuf, hf.mf.f_eq]
    rw [List.getElem?_map, List.getElem?_map, hch.at hp' hnl]
    rfl

/-- The same as `C83_feasible`, for a solver that satisfies the linear rows only up to another tolerance. -/
theorem nlp_feasible64 (hr : ReachableW H W n) (hs : W.m.solve H solver n = .ok ((.ok (), mod'), n')) {δ ε η : ℝ} (hδ : 0 ≤ δ) (hε : 0 ≤ ε)
    (hsol : ∀ sp st sol, W.m.SolvedBy H n solver sp st sol → ∃ q ∈ sp.prob.views,
      (∃ (δ' : ℝ) (ts : List ℝ), List.Forall₂ F64.Is sol.x ts ∧ q.LinearWithin64 δ' ε η ts) ∧ ∃ r, q.evaluate sol.x = .ok r ∧ ∀ y ∈ r.buf.f, ∃ z, y.Is z ∧ |z| ≤ δ)
    (hsp : W.m.stdProblem H n = .ok (sp, m₀)) {k : ℕ} {c : Constraint F64} (hk : (k, c) ∈ sp.jindex2constr) {v w m m' : ℝ} {a b : ℕ}
    (hl : Writes64 (mapEnv mod'.finalPrimals) c.lhs v m a) (hr' : Writes64 (mapEnv mod'.finalPrimals) c.rhs w m' b)
    (hm : m + m' + (10 ^ 8 + ε) ≤ 2 ^ (1022 : ℤ)) (hab : a + b + 5 ≤ 2 ^ 51) :
    c.kind.Within (δ + (if c.kind = .equal then 0 else ε) + ((1 + 2 ^ (-53 : ℤ)) ^ (a + b + 5) - 1) * (4 * (m + m') + 2 * δ)) v w := by
  obtain ⟨sp', k0, hsp', -, hres⟩ := solve_ok hs
  rcases hres with ⟨_, -, hbad⟩ | ⟨st, sol, primals, duals, hsol', hx, hmod⟩
  · injection hbad with hbad; cases hbad
  injection hmod with _ hmod
  subst hmod
  obtain ⟨q, hq, ⟨δ', ts, hts, hlin⟩, r, hr1, hr2⟩ := hsol _ _ _ ⟨k0, hsp', hsol'⟩
  rw [hsp'] at hsp
  cases hsp
  obtain ⟨hp, k', comp, e, ps, cols, xes, ves, hf, -⟩ := hr.facts hsp'
  obtain ⟨hlen, hpt⟩ := (hf.pointFacts64 hq).1 hlin
  have hxl : sol.x.length = cols.length := by rw [hts.length_eq, hlen]
  change Writes64 (mapEnv primals) _ _ _ _ at hl hr'
  rw [hx.env hf] at hl hr'
  obtain ⟨kc, -, hch⟩ := hf.mf.chain
  simp only [hf.jindex, List.mem_map, List.mem_filter, Prod.mk.injEq] at hk
  obtain ⟨p, ⟨hp', hnl⟩, rfl, rfl⟩ := hk
  obtain ⟨n1, m1, -, -, hok⟩ := hf.mf.piece hp'
  have hne : comp.constr.f ≠ [] := by
    rw [hf.mf.f_eq]
    intro h0
    have := List.map_eq_nil_iff.1 h0
    exact List.ne_nil_of_mem (List.mem_filter.2 ⟨hp', hnl⟩) this
  rcases hf.life with ⟨⟨-, h0⟩, -⟩ | ⟨-, -, hi⟩
  · exact absurd h0 hne
  rw [(hi q hq).evaluate hf.cok hf.cmpOk hf.vesP (by omega)] at hr1
  injection hr1 with hr1
  have hval : p.fn.evaluate (pointEnv cols sol.x) ∈ r.buf.f := by
    rw [← hr1]
    simp only [evalBuf, hf.mf.f_eq, List.map_map, List.mem_map, List.mem_filter, Function.comp]
    exact ⟨p, ⟨hp', hnl⟩, rfl⟩
  obtain ⟨y, hy, hyd⟩ := hr2 _ hval
  have hm0 : 0 ≤ m + m' := by
    obtain ⟨h3, h4⟩ := R64.writes64_rep hl
    obtain ⟨x, -, h5, -⟩ := h3.eval h4
    obtain ⟨h3, h4⟩ := R64.writes64_rep hr'
    obtain ⟨x, -, h6, -⟩ := h3.eval h4
    exact add_nonneg ((abs_nonneg _).trans h5.2) ((abs_nonneg _).trans h6.2)
  have hvw : |v - w| ≤ m + m' := by
    obtain ⟨h3, h4⟩ := R64.writes64_rep hl
    obtain ⟨x, -, h5, -⟩ := h3.eval h4
    obtain ⟨h3, h4⟩ := R64.writes64_rep hr'
    obtain ⟨x, -, h6, -⟩ := h3.eval h4
    exact (abs_sub _ _).trans (add_le_add h5.2 h6.2)
  have hγ := uD_pow_le' hab
  have hγ0 : 1 ≤ (1 + uD) ^ (a + b + 5) := one_le_pow₀ (by linarith [uD_nonneg])
  have hslack : ∃ t, (match p.slack with | some s => ∃ c, pointEnv cols sol.x s.id = some c ∧ c.Is t | none => t = 0) ∧ |t| ≤ 10 ^ 8 + ε ∧
      (if p.c.kind = .equal then t = 0 else if p.c.kind = .lessEqual then t ≤ ε else -ε ≤ t) := by
    have hbd := hpt.bounds p hp'
    have heq := hok.equal
    unfold Piece.bnd at hbd heq
    cases hkd : p.kind with
    | bound x => simp [Piece.isNl, hkd] at hnl
    | linEq x => simp [Piece.isNl, hkd] at hnl
    | linIneq x => simp [Piece.isNl, hkd] at hnl
    | nlEq =>
      rw [hkd] at heq
      refine ⟨0, by simp [Piece.slack, hkd], by simp; positivity, ?_⟩
      rw [if_pos (heq.2 rfl)]
    | nlIneq s f m1 =>
      rw [hkd] at heq hbd
      have hsl : p.slack = some s := by rw [Piece.slack, hkd]
      have hsm := (hf.newCol.2 ⟨p, hp', hsl⟩).1
      have hne : p.c.kind ≠ .equal := by rw [Ne, heq]; simp
      refine ⟨colVal64 cols ts s, ?_, ?_, ?_⟩
      · rw [hsl]
        simp only
        rw [pointEnv_col hf.cok hsm]
        exact R64.forall_get hts (colVal64_get hf.cok hlen hsm)
      · obtain ⟨h1, h2⟩ := hpt.box s hsm
        exact abs_le.2 ⟨by linarith, h2⟩
      · rw [if_neg hne]
        have := hbd _ _ _ rfl
        cases hkk : p.c.kind
        · exact absurd hkk hne
        all_goals
          simp only [hkk, reduceCtorEq, decide_true, decide_false, if_true, if_false, Bool.false_eq_true] at this ⊢
          simp only [F64.above_is F64.is_zero, F64.below_is F64.is_zero] at this
          linarith
  obtain ⟨t, ht1, ht2, ht3⟩ := hslack
  obtain ⟨z, hz, hzd⟩ := hf.row64 hp' hnl hl hr' ht1 ⟨by unfold maxSize; linarith, by omega⟩
  rw [hy.unique hz] at hyd
  change |z - (v - w - t)| ≤ ((1 + uD) ^ (a + b + 5) - 1) * (m + m' + |t|) at hzd
  change CKind.Within _ (_ + ((1 + uD) ^ (a + b + 5) - 1) * _) _ _
  generalize (1 + uD) ^ (a + b + 5) = γ at *
  have ht : |t| ≤ 2 * δ + 3 * (m + m') := by
    have e1 : t = (v - w) - z + (z - (v - w - t)) := by ring
    have h1 : |t| ≤ |v - w| + |z| + |z - (v - w - t)| := by
      calc |t| = |(v - w) - z + (z - (v - w - t))| := by rw [← e1]
        _ ≤ |(v - w) - z| + |z - (v - w - t)| := abs_add_le _ _
        _ ≤ _ := add_le_add (abs_sub _ _) le_rfl
    have h2 : (γ - 1) * (m + m' + |t|) ≤ 1 / 2 * (m + m' + |t|) := mul_le_mul_of_nonneg_right (by linarith) (by positivity)
    linarith
  have hE : |z - (v - w - t)| ≤ (γ - 1) * (4 * (m + m') + 2 * δ) := hzd.trans (mul_le_mul_of_nonneg_left (by linarith) (by linarith))
  obtain ⟨a1, a2⟩ := abs_le.1 hE
  obtain ⟨b1, b2⟩ := abs_le.1 hyd
  cases hkk : p.c.kind
  · rw [hkk] at ht3
    simp only [if_true] at ht3
    simp only [CKind.Within, if_true, abs_le]
    constructor <;> linarith
  all_goals
    rw [hkk] at ht3
    simp only [reduceCtorEq, if_false, if_true] at ht3
    simp only [CKind.Within, reduceCtorEq, if_false]
    linarith

/-- If the solver's point satisfies the problem that it was given, as doubles, up to `δ` and `ε`, every nonlinear constraint, taken in exact arithmetic as it was
written, holds at the reported values up to `δ` (for an equality) or `δ + ε` (for an inequality) and the rounding errors of its formulas. -/
theorem C83_feasible (hr : ReachableW H W n) (hs : W.m.solve H solver n = .ok ((.ok (), mod'), n')) {δ ε η : ℝ} (hδ : 0 ≤ δ) (hε : 0 ≤ ε)
    (hsol : ∀ sp st sol, W.m.SolvedBy H n solver sp st sol → ∃ q ∈ sp.prob.views, q.Within64 δ ε η sol.x)
    (hsp : W.m.stdProblem H n = .ok (sp, m₀)) {k : ℕ} {c : Constraint F64} (hk : (k, c) ∈ sp.jindex2constr) {v w m m' : ℝ} {a b : ℕ}
    (hl : Writes64 (mapEnv mod'.finalPrimals) c.lhs v m a) (hr' : Writes64 (mapEnv mod'.finalPrimals) c.rhs w m' b)
    (hm : m + m' + (10 ^ 8 + ε) ≤ 2 ^ (1022 : ℤ)) (hab : a + b + 5 ≤ 2 ^ 51) :
    c.kind.Within (δ + (if c.kind = .equal then 0 else ε) + ((1 + 2 ^ (-53 : ℤ)) ^ (a + b + 5) - 1) * (4 * (m + m') + 2 * δ)) v w :=
  nlp_feasible64 hr hs hδ hε (fun sp st sol h => by
    obtain ⟨q, hq, h1, h2⟩ := hsol sp st sol h
    exact ⟨q, hq, ⟨δ, h1⟩, h2⟩) hsp hk hl hr' hm hab

end

section Examples
attribute [local instance] exLibm

/-! ## An example: minimise `x * x` subject to `x * x <= 2`, with a solver that answers the double next to the square root of 2, whose square is more than 2. -/

/-- The program. -/
def exN : List (Cmd F64) :=
  [.expr (.var "x" .continuous), .expr (.mul 0 0), .cmpNodeScalar .lessEqual 1 (dbl 2) "", .newModel, .minimize 1, .addConstraints [0]]

def exNx : Node F64 := .var 0 "x" .continuous
def exNc : Constraint F64 := ⟨3, .mul 1 exNx exNx, .lessEqual, .const 2 (dbl 2), ""⟩

theorem exN_reach : ReachableW HashOrder.listOrder (worldD exN) (countD exN) :=
  (runsD_reachable (by decide +kernel) (by decide +kernel)).reachable

theorem exN_model : (worldD exN).m.constraints = [exNc] ∧ (worldD exN).m.objective = .minimize (.mul 1 exNx exNx) := by decide +kernel

/-- The double next to the square root of 2. -/
def exNr : ℚ := 6369051672525773 / 4503599627370496

/-- A solver that answers: slack 0, `x` the square root. -/
def exNsolver : SolverFn F64 := fun _ => .ok (.ok (.solved, ⟨[dbl 0, dbl exNr], [], [dbl 0], [dbl 0, dbl 0], [dbl 0, dbl 0]⟩))

/-- The standard problem has the columns `s`, `x` and one nonlinear row, which comes from the constraint. -/
def exNdata (sp : StdProb F64) : Bool :=
  sp.prob.views.all (fun q : Minlp F64 =>
    q.a.triplets.length = 0 && q.b.length = 0 && q.l.map F64.value = [some (-10 ^ 8), some (-10 ^ 8)] &&
    q.u.map F64.value = [some 0, some (10 ^ 8)] && q.p = [false, false] && q.nx = 2 &&
    (match q.evaluate [dbl 0, dbl exNr] with
    | .ok r => r.buf.f.map F64.value = [some (2 ^ (-51 : ℤ))] && r.buf.phi.value = some (2 + 2 ^ (-51 : ℤ))
    | .error _ => false)) &&
  !sp.prob.views.isEmpty && sp.var2index.length == 2 && sp.jindex2constr = [(0, exNc)] &&
  (match sp.prob with | .nlp _ => true | _ => false)

theorem exN_data : (match (worldD exN).m.stdProblem HashOrder.listOrder (countD exN) with
    | .ok r => exNdata r.1
    | .error _ => false) = true := by decide +kernel

theorem exN_within {sp st sol} (h : (worldD exN).m.SolvedBy HashOrder.listOrder (countD exN) exNsolver sp st sol) :
    ∃ q ∈ sp.prob.views, q.Within64 (2 ^ (-51 : ℤ)) 0 0 sol.x := by
  obtain ⟨k, hsp, hsol⟩ := h
  cases hsol
  have hd := exN_data
  rw [hsp] at hd
  simp only [exNdata, Bool.and_eq_true, List.all_eq_true, decide_eq_true_eq, Bool.not_eq_true', beq_iff_eq] at hd
  obtain ⟨⟨⟨⟨hall, hne⟩, hv2i⟩, hj⟩, -⟩ := hd
  obtain ⟨q, hq⟩ := List.exists_mem_of_ne_nil sp.prob.views (by rintro h; rw [h] at hne; simp at hne)
  obtain ⟨⟨⟨⟨⟨⟨ha, hb⟩, hl⟩, hu⟩, hp⟩, hnx⟩, hev⟩ := hall q hq
  have is : ∀ {a : F64} {x : ℚ}, a.value = some x → a.Is x := fun h => F64.is_lit h rfl
  obtain ⟨l0, l1, hl', hl0, hl1⟩ : ∃ a b, q.l = [a, b] ∧ a.value = some (-10 ^ 8) ∧ b.value = some (-10 ^ 8) := by
    match q.l, hl with
    | [a, b], hl => exact ⟨a, b, rfl, by simpa using hl⟩
    | [], hl => simp at hl
    | [_], hl => simp at hl
    | _ :: _ :: _ :: _, hl => simp at hl
  obtain ⟨u0, u1, hu', hu0, hu1⟩ : ∃ a b, q.u = [a, b] ∧ a.value = some 0 ∧ b.value = some (10 ^ 8) := by
    match q.u, hu with
    | [a, b], hu => exact ⟨a, b, rfl, by simpa using hu⟩
    | [], hu => simp at hu
    | [_], hu => simp at hu
    | _ :: _ :: _ :: _, hu => simp at hu
  refine ⟨q, hq, ⟨[0, (exNr : ℝ)], ?_, ?_, ?_, ?_, ?_, ?_⟩, ?_⟩
  · exact .cons exG_zero (.cons (is (x := exNr) (by decide +kernel)) .nil)
  · rw [hnx]; rfl
  · intro i a y hi
    rw [List.length_eq_zero_iff.1 hb] at hi
    simp at hi
  · intro i x lo hx hlo
    rw [hl'] at hlo
    match i with
    | 0 =>
      simp at hx hlo
      subst hx hlo
      rw [F64.below_is (is hl0)]; norm_num
    | 1 =>
      simp at hx hlo
      subst hx hlo
      rw [F64.below_is (is hl1)]; norm_num [exNr]
    | i + 2 => simp at hx
  · intro i x up hx hup
    rw [hu'] at hup
    match i with
    | 0 =>
      simp at hx hup
      subst hx hup
      rw [F64.above_is (is hu0)]; norm_num
    | 1 =>
      simp at hx hup
      subst hx hup
      rw [F64.above_is (is hu1)]; norm_num [exNr]
    | i + 2 => simp at hx
  · intro i x hx hpi
    rw [hp] at hpi
    match i with
    | 0 => simp at hpi
    | 1 => simp at hpi
    | i + 2 => simp at hpi
  · cases he : q.evaluate [dbl 0, dbl exNr] with
    | error _ => rw [he] at hev; cases hev
    | ok r =>
      rw [he] at hev
      simp only [Bool.and_eq_true, decide_eq_true_eq] at hev
      refine ⟨r, rfl, fun y hy => ?_⟩
      obtain ⟨a, h1, h2⟩ := list_of_map1 hev.1
      rw [h1, List.mem_singleton] at hy
      subst hy
      refine ⟨_, is h2, le_of_eq ?_⟩
      push_cast
      exact abs_of_pos (by positivity)

/-- The formulas of the constraint at the answer. -/
theorem exN_writes {σ : Env F64} (hσ : σ 0 = some (dbl exNr)) :
    Writes64 σ (.mul 1 exNx exNx) (exNr * exNr) (|(exNr : ℝ)| * |(exNr : ℝ)| + ((1 : ℕ) + (1 : ℕ) + 1) * tauD) (1 + 1 + 2) ∧
      Writes64 σ (.const 2 (dbl 2)) 2 |2| 1 := by
  have ht := tauD_le_one
  have hx : Writes64 σ exNx exNr |(exNr : ℝ)| 1 :=
    .var (n := 0) (n' := 1) (c := dbl exNr) rfl hσ (F64.is_lit (q := exNr) (by decide +kernel) rfl) (inRange_small (by norm_num [exNr]) (by norm_num))
  exact ⟨.mul (n := 1) (n' := 2) hx hx (inRange_small (by norm_num [exNr]; linarith) (by norm_num)) rfl,
    .const (n := 2) (n' := 3) (F64.is_lit (q := 2) (by decide +kernel) (by norm_num)) (inRange_small (by norm_num) (by norm_num)) rfl⟩

/-- The program solves its model, and the theorem says that the square of the answer is at most `2 + 2^-40`. It is more than 2. -/
example : ∃ mod' n', (worldD exN).m.solve HashOrder.listOrder exNsolver (countD exN) = .ok ((.ok (), mod'), n') ∧
    (exNr : ℝ) * exNr ≤ 2 + 2 ^ (-40 : ℤ) ∧ 2 < (exNr : ℝ) * exNr := by
  have hok : (match (worldD exN).m.solve HashOrder.listOrder exNsolver (countD exN) with
    | .ok ((.ok (), mod'), _) => decide (mapEnv mod'.finalPrimals 0 = some (dbl exNr))
    | _ => false) = true := by decide +kernel
  have hd := exN_data
  cases hs : (worldD exN).m.solve HashOrder.listOrder exNsolver (countD exN) with
  | error _ => rw [hs] at hok; cases hok
  | ok r =>
    obtain ⟨⟨res, mod'⟩, n'⟩ := r
    rw [hs] at hok
    cases res with
    | error _ => cases hok
    | ok u =>
      cases u
      simp only [decide_eq_true_eq] at hok
      refine ⟨mod', n', rfl, ?_, by norm_num [exNr]⟩
      cases hsp : (worldD exN).m.stdProblem HashOrder.listOrder (countD exN) with
      | error _ => rw [hsp] at hd; cases hd
      | ok sp =>
        obtain ⟨sp, m⟩ := sp
        rw [hsp] at hd
        simp only [exNdata, Bool.and_eq_true, List.all_eq_true, decide_eq_true_eq, Bool.not_eq_true', beq_iff_eq] at hd
        obtain ⟨⟨-, hj⟩, -⟩ := hd
        have hw := exN_writes hok
        have ht := tauD_le_one
        have hmul : |(exNr : ℝ)| * |(exNr : ℝ)| ≤ 3 := by norm_num [exNr]
        have h1 : (1 + 1 + 2) + 1 + 5 ≤ 2 ^ 51 := by norm_num
        have h2 : |(exNr : ℝ)| * |(exNr : ℝ)| + ((1 : ℕ) + (1 : ℕ) + 1) * tauD + |2| + (10 ^ 8 + 0) ≤ 2 ^ (1022 : ℤ) := by
          have : (10 : ℝ) ^ 9 ≤ 2 ^ (1022 : ℤ) := le_trans (by norm_num) (zpow_le_zpow_right₀ (by norm_num : (1 : ℝ) ≤ 2) (by norm_num : (30 : ℤ) ≤ 1022))
          refine le_trans ?_ this
          norm_num at hmul ⊢
          linarith
        have h3 := C83_feasible exN_reach hs (by positivity) le_rfl (fun sp st sol => exN_within) hsp (k := 0) (c := exNc) (by rw [hj]; simp)
          hw.1 hw.2 h2 h1
        simp only [exNc, CKind.Within, reduceCtorEq, if_false] at h3
        have h4 : ((1 + 2 ^ (-53 : ℤ) : ℝ) ^ ((1 + 1 + 2) + 1 + 5) - 1) * (4 * (|(exNr : ℝ)| * |(exNr : ℝ)| + ((1 : ℕ) + (1 : ℕ) + 1) * tauD + |2|) + 2 * 2 ^ (-51 : ℤ)) ≤
            ((1 + 2 ^ (-53 : ℤ) : ℝ) ^ ((1 + 1 + 2) + 1 + 5) - 1) * 40 := by
          refine mul_le_mul_of_nonneg_left ?_ (by norm_num)
          norm_num at hmul ⊢
          linarith
        have h5 : ((1 + 2 ^ (-53 : ℤ) : ℝ) ^ ((1 + 1 + 2) + 1 + 5) - 1) * 40 ≤ 2 ^ (-41 : ℤ) := by norm_num
        have h6 : (2 : ℝ) ^ (-51 : ℤ) + 2 ^ (-41 : ℤ) ≤ 2 ^ (-40 : ℤ) := by norm_num
        linarith

/-- Evaluating the problem of the program at the answer: the objective is within `2^-49` of the exact square. -/
example : ∃ sp m q r z, (worldD exN).m.stdProblem HashOrder.listOrder (countD exN) = .ok (sp, m) ∧ q ∈ sp.prob.views ∧
    q.evaluate [dbl 0, dbl exNr] = .ok r ∧ r.buf.phi.Is z ∧ |z - (exNr : ℝ) * exNr| ≤ 2 ^ (-49 : ℤ) := by
  have hd := exN_data
  cases hsp : (worldD exN).m.stdProblem HashOrder.listOrder (countD exN) with
  | error _ => rw [hsp] at hd; cases hd
  | ok sp =>
    obtain ⟨sp, m⟩ := sp
    rw [hsp] at hd
    have henv : (match (worldD exN).m.stdProblem HashOrder.listOrder (countD exN) with
      | .ok r => decide (pointOf r.1.var2index [dbl 0, dbl exNr] 0 = some (dbl exNr))
      | .error _ => false) = true := by decide +kernel
    rw [hsp] at henv
    simp only [decide_eq_true_eq] at henv
    simp only [exNdata, Bool.and_eq_true, List.all_eq_true, decide_eq_true_eq, Bool.not_eq_true', beq_iff_eq] at hd
    obtain ⟨⟨⟨⟨hall, hne⟩, hv2i⟩, hj⟩, hn⟩ := hd
    obtain ⟨q, hq⟩ := List.exists_mem_of_ne_nil sp.prob.views (by rintro h; rw [h] at hne; simp at hne)
    have hnlp : ∃ q, sp.prob = .nlp q := by
      cases hp : sp.prob <;> rw [hp] at hn <;> simp at hn
      exact ⟨_, rfl⟩
    obtain ⟨r, hr, hphi, -⟩ := C83_values exN_reach hsp (.inl hnlp) hq (ops := []) rfl (xs := [dbl 0, dbl exNr]) (by rw [hv2i]; rfl) rfl
    obtain ⟨z, hz, hzd⟩ := hphi _ _ _ (.minimize exN_model.2 (exN_writes henv).1)
    refine ⟨sp, m, q, r, z, rfl, hq, hr, hz, hzd.trans ?_⟩
    have ht : tauD ≤ 1 / 10 := (zpow_le_zpow_right₀ (by norm_num) (show (-1022 : ℤ) ≤ -4 by norm_num)).trans (by norm_num)
    have hmul : |(exNr : ℝ)| * |(exNr : ℝ)| ≤ 3 := by norm_num [exNr]
    have h1 : |(exNr : ℝ)| * |(exNr : ℝ)| + ((1 : ℕ) + (1 : ℕ) + 1) * tauD ≤ 33 / 10 := by
      norm_num at hmul ⊢
      linarith
    refine (mul_le_mul_of_nonneg_left h1 (by norm_num)).trans ?_
    norm_num

end Examples

end Verif
