import Verif.Props.ModelStd
import Verif.Proofs.Obj
import Verif.Proofs.Bounds
import Mathlib.Tactic.Linarith

/-! # Properties C26, C27, C29: objective, bounds and initial point of the standard problem -/

namespace Verif

set_option linter.unusedSectionVars false
set_option linter.unusedSimpArgs false

section
variable {K : Type} [Field K] [LinearOrder K] [IsStrictOrderedRing K] [Trig K]
variable {H : HashOrder} {W : World (Option K)} {n m : Nat} {sp : StdProb (Option K)}

/-! ## C26 objective -/

/-- C26, Nlp and Minlp: after any history of calls on the problem, evaluating it at any point with one entry per column gives the
value at that point of what the model minimises. -/
theorem C26_nonlinear (hr : ReachableApiW H W n) (h : W.m.stdProblem H n = .ok (sp, m))
    (hc : (∃ q, sp.prob = .nlp q) ∨ ∃ q, sp.prob = .minlp q) {q q' : Minlp (Option K)} (hq : q ∈ sp.prob.views)
    {ops : List (ProbOp (Option K))} (hops : runProb q ops = .ok q') {xs : List (Option K)} (hx : xs.length = sp.var2index.length) :
    q'.objectiveAt xs = some (W.m.minimised (pointOf sp.var2index xs)) := by
  obtain ⟨hp, k, comp, e, ps, cols, xes, ves, hf, -, hg⟩ := hr.facts h
  have hlen : xs.length = cols.length := by rw [hx, hf.v2i]; simp
  rcases hf.life with ⟨-, hl, -⟩ | ⟨-, -, hi⟩
  · rcases hl with ⟨a, ha⟩ | ⟨a, ha⟩ <;> rcases hc with ⟨b, hb⟩ | ⟨b, hb⟩ <;> rw [ha] at hb <;> cases hb
  · have hi' := (hi q hq).run hf.cok hf.cmpOk hf.vesP hops
    unfold Minlp.objectiveAt
    rw [hi'.evaluate hf.cok hf.cmpOk hf.vesP (by omega)]
    obtain ⟨k1, k2, hk⟩ := hf.mf.objComp
    simp only [evalBuf, (stdComponents_prop hk).1, hf.v2i, pointOf_eq, hf.mf.objVal]

/-- C26, Lp and Milp: there is a constant such that, after any history of calls on the problem, at any point of numbers with one entry
per column, what the model minimises is the objective value of the problem plus that constant. -/
theorem C26_linear (hr : ReachableApiW H W n) (h : W.m.stdProblem H n = .ok (sp, m))
    (hc : (∃ q, sp.prob = .lp q) ∨ ∃ q, sp.prob = .milp q) :
    ∃ b : Option K, ∀ (q q' : Minlp (Option K)), q ∈ sp.prob.views → ∀ ops, runProb q ops = .ok q' →
      ∀ ts : List K, ts.length = sp.var2index.length →
        ∃ v, q'.objectiveAt (ts.map some) = some v ∧ W.m.minimised (pointOf sp.var2index (ts.map some)) = (v +. b) := by
  obtain ⟨hp, k, comp, e, ps, cols, xes, ves, hf, -, hg⟩ := hr.facts h
  rcases hf.life with ⟨ha, -, hi⟩ | ⟨-, hl, -⟩
  · refine ⟨comp.obj.prop.b, fun q q' hq ops hops ts hx => ?_⟩
    have hlen : ts.length = cols.length := by rw [hx, hf.v2i]; simp
    have hi' := (hi q hq).run hops
    unfold Minlp.objectiveAt
    rw [hi'.evaluate (by simp [stdC, hlen])]
    refine ⟨_, rfl, ?_⟩
    simp only
    rw [unrolledDot_exact, linear_objective hf.cok hf.cmpOk (by simp [hlen]) (by simp), hf.v2i, pointOf_eq, ← hf.mf.objVal]
    obtain ⟨k1, k2, hk⟩ := hf.mf.objComp
    have hp' := (stdComponents_prop hk).2
    rw [hp']
    refine affine_val (by simp) _ e hf.mf.goodE ?_
    have := ha.1
    rw [hp'] at this
    exact this
  · rcases hl with ⟨a, ha⟩ | ⟨a, ha⟩ <;> rcases hc with ⟨b, hb⟩ | ⟨b, hb⟩ <;> rw [ha] at hb <;> cases hb

end

/-- Non-vacuity of C26: the example is a Minlp and evaluates, at `_s_a0_ = 0, _s_j0_ = 0, x = 1, y = 3`, to `x + y = 4`; with a linear
objective `2 - x` the problem is an Lp whose value at `x = 3` is `-3`, which differs by `2` from `-1`. -/
example : (exSp.bind fun sp => sp.prob.views[0]?.bind fun q => q.objectiveAt [some 0, some 0, some 1, some 3]) = some (some 4) ∧
    (let cmds : List (Cmd Q) := [.expr (.var "x" .continuous), .expr (.neg 0), .expr (.addScalar 1 (some 2)), .minimize 2]
     ((resultOf ((worldOf cmds).m.stdProblem HashOrder.listOrder) (wcount cmds)).bind fun sp =>
      sp.prob.views[0]?.bind fun q => q.objectiveAt [some (3 : ℚ)]) = some (some (-3 : ℚ))) := by
  constructor <;> decide +kernel

section
variable {K : Type} [Field K] [LinearOrder K] [IsStrictOrderedRing K] [Trig K]
variable {H : HashOrder} {W : World (Option K)} {n m : Nat} {sp : StdProb (Option K)}

/-! ## C27 bounds -/

theorem BndIdx.mem {F : Type} [FloatOps F] {cols : List (Node F)} {t : Node F → Option (Constraint F)} {um : List (Nat × Constraint F)}
    (hb : BndIdx cols t um) {i : Nat} {x : Node F} (hi : cols[i]? = some x) (c : Constraint F) : (i, c) ∈ um ↔ t x = some c := by
  rw [← getNat_mem hb.nodup, hb.get, hi]; rfl

/-- C27, upper bounds of the columns that are variables of the model: the bound is the minimum of `1e8` and of the values of the
constraints that bound the variable from above; at most one constraint is recorded, it is one that attains the bound, and one is
recorded unless all the values exceed `1e8`. -/
theorem C27_upper (hr : ReachableApiW H W n) (h : W.m.stdProblem H n = .ok (sp, m)) {q : Minlp (Option K)} (hq : q ∈ sp.prob.views)
    {x : Node (Option K)} {i : Nat} (hx : (x, i) ∈ sp.var2index) (hn : x.id < n) :
    ∃ up : K, q.u[i]? = some (some up) ∧
      (∀ t, t ≤ up ↔ t ≤ 10 ^ 8 ∧ ∀ c ∈ W.m.constraints, c.kind = .lessEqual → ∀ v, c.Bounds x (some v) → t ≤ v) ∧
      (sp.uindex2constr.map Prod.fst).Nodup ∧
      (∀ c, (i, c) ∈ sp.uindex2constr → c ∈ W.m.constraints ∧ c.kind = .lessEqual ∧ c.Bounds x (some up)) ∧
      ((∀ c, (i, c) ∉ sp.uindex2constr) → ∀ c ∈ W.m.constraints, c.kind = .lessEqual → ∀ v, c.Bounds x (some v) → 10 ^ 8 < v) := by
  obtain ⟨hp, k, comp, e, ps, cols, xes, ves, hf, -, hg⟩ := hr.facts h
  rw [hf.mem_v2i] at hx
  have hxc := List.mem_of_getElem? hx
  have hold : ∀ v c, _ := fun v c => hf.upper_old hxc hn (v := v) (c := c)
  obtain ⟨up, h1, h2, h3, h4⟩ := tightest_up (K := K) (10 ^ 8) comp.constr.u x
  have hinf : (inf : Option K) = some (10 ^ 8) := by simp
  have hall : ∀ {P : K → Prop}, (∀ e ∈ comp.constr.u, e.1.ptrEq x = true → ∀ v, e.2.1 = some v → P v) ↔
      ∀ c ∈ W.m.constraints, c.kind = .lessEqual → ∀ v, c.Bounds x (some v) → P v := by
    intro P
    constructor
    · intro hh c hc hk v hb
      obtain ⟨b, hb1, hb2, hb3⟩ := (hold (some v) c).2 ⟨hc, hk, hb⟩
      exact hh b hb1 hb2 v (by rw [hb3])
    · intro hh b hb1 hb2 v hb3
      obtain ⟨g1, g2, g3⟩ := (hold b.2.1 b.2.2).1 ⟨b, hb1, hb2, rfl⟩
      exact hh _ g1 g2 v (hb3 ▸ g3)
  refine ⟨up, ?_, ?_, hf.uidx.nodup, ?_, ?_⟩
  · rw [(hf.view hq).u, stdU, List.getElem?_map, hx, Option.map_some, upT, hinf, h1]
  · intro t; rw [h2, hall]
  · intro c hc
    rw [hf.uidx.mem hx, upT, hinf] at hc
    obtain ⟨b, hb1, hb2, hb3⟩ := h3 c hc
    exact (hold (some up) c).1 ⟨b, hb1, hb2, hb3⟩
  · intro hc
    simp only [hf.uidx.mem hx, upT, hinf] at hc
    have := (h4 (by cases hh : (tightest (fun v c => v <=. c) (some (10 ^ 8 : K)) comp.constr.u x).2 with
      | none => rfl
      | some c => exact absurd hh (hc c))).2
    exact (hall (P := fun v => 10 ^ 8 < v)).1 this

/-- C27, lower bounds. -/
theorem C27_lower (hr : ReachableApiW H W n) (h : W.m.stdProblem H n = .ok (sp, m)) {q : Minlp (Option K)} (hq : q ∈ sp.prob.views)
    {x : Node (Option K)} {i : Nat} (hx : (x, i) ∈ sp.var2index) (hn : x.id < n) :
    ∃ lo : K, q.l[i]? = some (some lo) ∧
      (∀ t, lo ≤ t ↔ -(10 ^ 8) ≤ t ∧ ∀ c ∈ W.m.constraints, c.kind = .greaterEqual → ∀ v, c.Bounds x (some v) → v ≤ t) ∧
      (sp.lindex2constr.map Prod.fst).Nodup ∧
      (∀ c, (i, c) ∈ sp.lindex2constr → c ∈ W.m.constraints ∧ c.kind = .greaterEqual ∧ c.Bounds x (some lo)) ∧
      ((∀ c, (i, c) ∉ sp.lindex2constr) → ∀ c ∈ W.m.constraints, c.kind = .greaterEqual → ∀ v, c.Bounds x (some v) → v < -(10 ^ 8)) := by
  obtain ⟨hp, k, comp, e, ps, cols, xes, ves, hf, -, hg⟩ := hr.facts h
  rw [hf.mem_v2i] at hx
  have hxc := List.mem_of_getElem? hx
  have hold : ∀ v c, _ := fun v c => hf.lower_old hxc hn (v := v) (c := c)
  obtain ⟨up, h1, h2, h3, h4⟩ := tightest_lo (K := K) (-(10 ^ 8)) comp.constr.l x
  have hinf : FloatOps.neg (inf : Option K) = some (-(10 ^ 8)) := by simp
  have hall : ∀ {P : K → Prop}, (∀ e ∈ comp.constr.l, e.1.ptrEq x = true → ∀ v, e.2.1 = some v → P v) ↔
      ∀ c ∈ W.m.constraints, c.kind = .greaterEqual → ∀ v, c.Bounds x (some v) → P v := by
    intro P
    constructor
    · intro hh c hc hk v hb
      obtain ⟨b, hb1, hb2, hb3⟩ := (hold (some v) c).2 ⟨hc, hk, hb⟩
      exact hh b hb1 hb2 v (by rw [hb3])
    · intro hh b hb1 hb2 v hb3
      obtain ⟨g1, g2, g3⟩ := (hold b.2.1 b.2.2).1 ⟨b, hb1, hb2, rfl⟩
      exact hh _ g1 g2 v (hb3 ▸ g3)
  refine ⟨up, ?_, ?_, hf.lidx.nodup, ?_, ?_⟩
  · rw [(hf.view hq).l, stdL, List.getElem?_map, hx, Option.map_some, loT, hinf, h1]
  · intro t; rw [h2, hall]
  · intro c hc
    rw [hf.lidx.mem hx, loT, hinf] at hc
    obtain ⟨b, hb1, hb2, hb3⟩ := h3 c hc
    exact (hold (some up) c).1 ⟨b, hb1, hb2, hb3⟩
  · intro hc
    simp only [hf.lidx.mem hx, loT, hinf] at hc
    have := (h4 (by cases hh : (tightest (fun v c => c <=. v) (some (-(10 ^ 8) : K)) comp.constr.l x).2 with
      | none => rfl
      | some c => exact absurd hh (hc c))).2
    exact (hall (P := fun v => v < -(10 ^ 8))).1 this

/-- C27, slack columns: the slack of a row of an inequality is bounded by 0 on the side of the inequality and by `1e8` in absolute
value on the other, and the only constraint recorded is that of the row, on its side. -/
theorem C27_slack (hr : ReachableApiW H W n) (h : W.m.stdProblem H n = .ok (sp, m)) {q : Minlp (Option K)} (hq : q ∈ sp.prob.views)
    {s : Node (Option K)} {i k : Nat} {c : Constraint (Option K)} (hs : (s, i) ∈ sp.var2index) (hn : n ≤ s.id)
    (hk : (k, c) ∈ sp.aindex2constr ∧ s.name = slackNameA k ∨ (k, c) ∈ sp.jindex2constr ∧ s.name = slackNameJ k) :
    (c.kind = .lessEqual → q.u[i]? = some (some 0) ∧ q.l[i]? = some (some (-(10 ^ 8))) ∧
      (∀ c', (i, c') ∈ sp.uindex2constr ↔ c' = c) ∧ ∀ c', (i, c') ∉ sp.lindex2constr) ∧
    (c.kind = .greaterEqual → q.l[i]? = some (some 0) ∧ q.u[i]? = some (some (10 ^ 8)) ∧
      (∀ c', (i, c') ∈ sp.lindex2constr ↔ c' = c) ∧ ∀ c', (i, c') ∉ sp.uindex2constr) := by
  obtain ⟨hp, kk, comp, e, ps, cols, xes, ves, hf, -, hg⟩ := hr.facts h
  rw [hf.mem_v2i] at hs
  have hsc := List.mem_of_getElem? hs
  have hpc : ∃ p ∈ ps, p.slack = some s ∧ p.c = c := by
    simp only [hf.aindex, hf.jindex, List.mem_map, List.mem_filter, Prod.mk.injEq] at hk
    rcases hk with ⟨⟨p, ⟨hp', hl⟩, rfl, rfl⟩, hname⟩ | ⟨⟨p, ⟨hp', hl⟩, rfl, rfl⟩, hname⟩
    · exact ⟨p, hp', hf.slackA hp' hl hsc hn hname, rfl⟩
    · exact ⟨p, hp', hf.slackJ hp' hl hsc hn hname, rfl⟩
  obtain ⟨p, hp', hsl, rfl⟩ := hpc
  have hb := fun v c => hf.bound_new hp' hsl (v := v) (c := c)
  have h18 : (0 : K) ≤ 10 ^ 8 := by positivity
  obtain ⟨up, u1, u2, u3, u4⟩ := tightest_up (K := K) (10 ^ 8) comp.constr.u s
  obtain ⟨lo, l1, l2, l3, l4⟩ := tightest_lo (K := K) (-(10 ^ 8)) comp.constr.l s
  have hinf : (inf : Option K) = some (10 ^ 8) := by simp
  have hninf : FloatOps.neg (inf : Option K) = some (-(10 ^ 8)) := by simp
  rw [(hf.view hq).u, (hf.view hq).l, stdU, stdL, List.getElem?_map, List.getElem?_map, hs, Option.map_some, Option.map_some]
  simp only [hf.uidx.mem hs, hf.lidx.mem hs, upT, loT]
  simp only [hninf]
  simp only [hinf, u1, l1]
  set tu := (tightest (fun v c => v <=. c) (some (10 ^ 8 : K)) comp.constr.u s).2
  set tl := (tightest (fun v c => c <=. v) (some (-(10 ^ 8) : K)) comp.constr.l s).2
  constructor
  · intro hkind
    have hnl : tl = none := by
      cases hh : tl with
      | none => rfl
      | some c' =>
        obtain ⟨b, b1, b2, b3⟩ := l3 c' hh
        have := ((hb (some lo) c').2.1 ⟨b, b1, b2, b3⟩).2.2
        rw [hkind] at this; cases this
    obtain ⟨b, b1, b2, b3⟩ := (hb zero p.c).1.2 ⟨rfl, rfl, hkind⟩
    have hsu : tu = some p.c ∧ up = 0 := by
      cases hh : tu with
      | none =>
        have := (u4 hh).2 b b1 b2 0 (by rw [b3]; simp)
        exact absurd this (not_lt.2 h18)
      | some c' =>
        obtain ⟨b', b1', b2', b3'⟩ := u3 c' hh
        have h5 := (hb (some up) c').1.1 ⟨b', b1', b2', b3'⟩
        exact ⟨by rw [h5.1], by simpa using h5.2.1⟩
    have := (l4 hnl).1
    rw [hnl, hsu.1, hsu.2, this]
    exact ⟨rfl, rfl, fun c' => by simp [eq_comm], fun c' => by simp⟩
  · intro hkind
    have hnl : tu = none := by
      cases hh : tu with
      | none => rfl
      | some c' =>
        obtain ⟨b, b1, b2, b3⟩ := u3 c' hh
        have := ((hb (some up) c').1.1 ⟨b, b1, b2, b3⟩).2.2
        rw [hkind] at this; cases this
    obtain ⟨b, b1, b2, b3⟩ := (hb zero p.c).2.2 ⟨rfl, rfl, hkind⟩
    have hsu : tl = some p.c ∧ lo = 0 := by
      cases hh : tl with
      | none =>
        have := (l4 hh).2 b b1 b2 0 (by rw [b3]; simp)
        exact absurd this (not_lt.2 (by simpa using h18))
      | some c' =>
        obtain ⟨b', b1', b2', b3'⟩ := l3 c' hh
        have h5 := (hb (some lo) c').2.1 ⟨b', b1', b2', b3'⟩
        exact ⟨by rw [h5.1], by simpa using h5.2.1⟩
    have := (u4 hnl).1
    rw [hnl, hsu.1, hsu.2, this]
    exact ⟨rfl, rfl, fun c' => by simp [eq_comm], fun c' => by simp⟩

/-- C27, what it means that a constraint of the model bounds `x` by `v`: wherever `x` has a value, the constraint holds exactly if that
value is in its relation to `v`. -/
theorem C27_meaning (hr : ReachableApiW H W n) (h : W.m.stdProblem H n = .ok (sp, m)) {c : Constraint (Option K)}
    (hc : c ∈ W.m.constraints) {x : Node (Option K)} {v : K} (hb : c.Bounds x (some v)) (σ : Env (Option K)) (t : K)
    (ht : x.evaluate σ = some t) : c.Holds σ ↔ c.kind.Rel t v := by
  obtain ⟨hp, k, comp, e, ps, cols, xes, ves, hf, -, hg⟩ := hr.facts h
  rw [← hf.mf.cs] at hc
  obtain ⟨p, hp', rfl⟩ := List.mem_map.1 hc
  obtain ⟨n', m', -, -, hok⟩ := hf.mf.piece hp'
  obtain ⟨hkind, hv⟩ := hok.bounds_iff.1 hb
  obtain ⟨w, hw1, hw2⟩ := hok.bound x hkind
  obtain ⟨k1, hk1⟩ := hok.exp
  have haff : Aff p.exp := by
    have := hok.affine
    rw [hok.prop.2] at this
    unfold Aff
    rw [this]; simp [Piece.isNl, hkind]
  have hval := affine_val (by simp) σ p.exp hok.goodExp haff
  rw [← hok.prop.2, hw1, subN_val hk1] at hval
  have hw : w = some 1 := by cases w <;> simp at hw2 ⊢; exact hw2
  cases hb' : p.comp.prop.b with
  | none => rw [hb'] at hv; simp at hv
  | some b =>
    rw [hb'] at hv hval
    simp only [Exact.neg_some, Option.some.injEq] at hv
    have hres : p.c.residual σ = some (t - v) := by
      unfold Constraint.residual
      rw [hval, hv, hw]
      simp [lin, ht]
    rw [Constraint.holds_iff]
    constructor
    · rintro ⟨d, hd, hrel⟩
      rw [hres] at hd; injection hd with hd; subst hd
      cases hk : p.c.kind <;> rw [hk] at hrel <;> simp only [CKind.Rel] at hrel ⊢ <;> linarith
    · intro hrel
      refine ⟨_, hres, ?_⟩
      cases hk : p.c.kind <;> rw [hk] at hrel <;> simp only [CKind.Rel] at hrel ⊢ <;> linarith

/-- C27: comparing a variable with a number gives a constraint that bounds the variable by that number. -/
theorem C27_simple {x : Node (Option K)} (hx : x.isVar = true) {k : CKind} (hk : k ≠ .equal) {v : K} {tag : String} {n m : Nat}
    {c : Constraint (Option K)} (h : cmpNS k x (some v) tag n = .ok (c, m)) : c.kind = k ∧ c.Bounds x (some v) := by
  have hc : c.kind = k ∧ c.lhs = x ∧ ∃ j, c.rhs = .const j (some v) := by
    have hx' : cmpNS k x (some v) tag = M.bind (newConst (some v)) fun b => newConstraint x k b tag := by cases k <;> rfl
    rw [hx', M.bind_ok] at h
    obtain ⟨b, k1, h1, h2⟩ := h
    obtain ⟨rfl, -⟩ := newConstraint_ok h2
    simp only [newConst, M.bind_ok, M.fresh_ok, M.pure_ok] at h1
    obtain ⟨i, k2, ⟨rfl, rfl⟩, rfl, rfl⟩ := h1
    exact ⟨rfl, rfl, _, rfl⟩
  obtain ⟨rfl, hl, j, hr⟩ := hc
  refine ⟨rfl, hk, ?_⟩
  rw [hl, hr]
  cases x <;> simp [Node.isVar] at hx
  rename_i i s kd
  by_cases hv : v = 0
  · subst hv
    exact ⟨0, .var i s kd, 1, some 1, by simp [subN, sMul, newConst, M.bind, M.fresh, M.pure, addN, Node.isConstVal], rfl, rfl,
      by simp, by simp [Node.stdProperties]⟩
  · refine ⟨0, .add 2 [.var i s kd, .const 1 (some (-v))], 3, some 1, ?_, ?_, ?_, by simp, ?_⟩
    · simp [subN, sMul, newConst, M.bind, M.fresh, M.pure, addN, Node.isConstVal, hv, gather, finishAdd, newAdd]
    · simp [Node.stdProperties, Node.stdProperties.addProps]
    · simp [Node.stdProperties, Node.stdProperties.addProps, addToN]
    · simp [Node.stdProperties, Node.stdProperties.addProps]

end

/-- Non-vacuity of C27: the columns `_s_a0_`, `_s_j0_`, `x`, `y` of the example have the upper bounds `0, 1e8, 1e8, 4` and the lower
bounds `-1e8, 0, -1e8, -1e8`, recorded for the constraints `a` (column 0), `c` (column 3) and `b` (column 1). -/
example : exSp.map (fun sp => sp.prob.views.map fun q => (q.u, q.l)) =
    some [([some 0, some 100000000, some 100000000, some 4], [some (-100000000), some 0, some (-100000000), some (-100000000)])] ∧
    exSp.map (fun sp => (sp.uindex2constr.map fun e => (e.1, e.2.label), sp.lindex2constr.map fun e => (e.1, e.2.label))) =
      some ([(0, "a"), (3, "c")], [(1, "b")]) := by
  constructor <;> decide +kernel

/-! ## C29 initial point -/

/-- The last value that a list of (handle, value) pairs gives to `x`. -/
def lastValue {F : Type} (regs : List (Node F)) (vals : List (Nat × F)) (x : Node F) : Option F :=
  ((vals.filter fun e => (regs[e.1]?).any fun a => a.ptrEq x).getLast?).map Prod.snd

/-- Calls that replace the initial values. -/
def Cmd.setsInit {F : Type} : Cmd F → Bool
  | .setInitPrimals _ | .newModel => true
  | _ => false

section
variable {F : Type} [FloatOps F] {H : HashOrder} {W : World F} {n m : Nat} {sp : StdProb F}

theorem getN_insertN {β : Type} (m : List (Node F × β)) (k : Node F) (v : β) (x : Node F) :
    getN (insertN m k v) x = if k.ptrEq x then some v else getN m x := by
  induction m with
  | nil => simp [insertN, getN]
  | cons a m ih =>
    obtain ⟨y, w⟩ := a
    simp only [insertN]
    by_cases h : y.ptrEq k = true
    · rw [if_pos h]
      simp only [getN]
      have : y.ptrEq x = k.ptrEq x := by
        rw [Bool.eq_iff_iff]
        exact ⟨fun h' => ptrEq_trans (by rw [ptrEq_symm]; exact h) h', fun h' => ptrEq_trans h h'⟩
      rw [this]
      split <;> rfl
    · rw [if_neg h]
      simp only [getN, ih]
      by_cases h' : y.ptrEq x = true
      · rw [if_pos h', if_pos h', if_neg]
        intro hk
        exact h (ptrEq_trans h' (by rw [ptrEq_symm]; exact hk))
      · rw [if_neg h', if_neg h']

theorem init_values (regs : List (Node F)) (vals : List (Nat × F)) (x : Node F) :
    getN ((vals.filterMap fun e => (regs[e.1]?).map fun a => (a, e.2)).foldl (fun m e => insertN m e.1 e.2) []) x =
      lastValue regs vals x := by
  induction vals using List.reverseRecOn with
  | nil => rfl
  | append_singleton vals e ih =>
    unfold lastValue at ih ⊢
    rw [List.filterMap_append, List.foldl_append, List.filter_append]
    cases hr : regs[e.1]? with
    | none => simp [hr, ih]
    | some a =>
      simp only [List.filterMap_cons, List.filterMap_nil, hr, Option.map_some, List.foldl_cons, List.foldl_nil, getN_insertN,
        List.filter_cons, List.filter_nil, Option.any_some, ih]
      split <;> simp

theorem Cmd.keeps_init {cmd : Cmd F} {W' : World F} (h : cmd.exec H W n = .ok (W', m)) (hc : cmd.setsInit = false) :
    W'.m.initPrimals = W.m.initPrimals := by
  cases cmd <;> simp only [Cmd.setsInit, Bool.true_eq_false] at hc <;> simp only [Cmd.exec] at h
  case solve solver =>
    rw [M.bind_ok] at h
    obtain ⟨r, k, h1, h2⟩ := h
    simp only [M.pure_ok] at h2
    obtain ⟨rfl, rfl⟩ := h2
    obtain ⟨sp, k2, -, -, hs⟩ := solve_ok h1
    rcases hs with ⟨e, -, rfl⟩ | ⟨_, _, _, _, -, -, rfl⟩ <;> rfl
  case cmpNodeNode k i j tag =>
    cases hi : W.regs[i]? <;> cases hj : W.regs[j]? <;> simp only [hi, hj, M.bind_ok, M.pure_ok] at h
    case some.some => obtain ⟨_, _, -, rfl, rfl⟩ := h; rfl
    all_goals (obtain ⟨rfl, rfl⟩ := h; rfl)
  case cmpNodeScalar k i v tag =>
    cases hi : W.regs[i]? <;> simp only [hi, M.bind_ok, M.pure_ok] at h
    case some => obtain ⟨_, _, -, rfl, rfl⟩ := h; rfl
    all_goals (obtain ⟨rfl, rfl⟩ := h; rfl)
  case cmpScalarNode k v i tag =>
    cases hi : W.regs[i]? <;> simp only [hi, M.bind_ok, M.pure_ok] at h
    case some => obtain ⟨_, _, -, rfl, rfl⟩ := h; rfl
    all_goals (obtain ⟨rfl, rfl⟩ := h; rfl)
  case stdComponents i =>
    cases hi : W.regs[i]? <;> simp only [hi, M.bind_ok, M.pure_ok] at h
    case some => obtain ⟨_, _, -, rfl, rfl⟩ := h; rfl
    all_goals (obtain ⟨rfl, rfl⟩ := h; rfl)
  case minimize i =>
    cases hi : W.regs[i]? <;> simp only [hi, M.pure_ok] at h <;> obtain ⟨rfl, rfl⟩ := h <;> rfl
  case maximize i =>
    cases hi : W.regs[i]? <;> simp only [hi, M.pure_ok] at h <;> obtain ⟨rfl, rfl⟩ := h <;> rfl
  case addConstraint i =>
    cases hi : W.cs[i]? <;> simp only [hi, M.pure_ok] at h <;> obtain ⟨rfl, rfl⟩ := h <;> rfl
  case expr op => 
    simp only [M.bind_ok, M.pure_ok] at h
    obtain ⟨_, _, -, rfl, rfl⟩ := h; rfl
  case stdProblem => 
    simp only [M.bind_ok, M.pure_ok] at h
    obtain ⟨_, _, -, rfl, rfl⟩ := h; rfl
  case noObjective => simp only [M.pure_ok] at h; obtain ⟨rfl, rfl⟩ := h; rfl
  case addConstraints is => simp only [M.pure_ok] at h; obtain ⟨rfl, rfl⟩ := h; rfl

theorem runCmds_append (xs ys : List (Cmd F)) (W W' : World F) (n m : Nat) :
    runCmds H W (xs ++ ys) n = .ok (W', m) ↔ ∃ W1 k, runCmds H W xs n = .ok (W1, k) ∧ runCmds H W1 ys k = .ok (W', m) := by
  induction xs generalizing W n with
  | nil =>
    simp only [List.nil_append, runCmds, M.pure_ok]
    constructor
    · intro h; exact ⟨W, n, ⟨rfl, rfl⟩, h⟩
    · rintro ⟨_, _, ⟨rfl, rfl⟩, h⟩; exact h
  | cons c xs ih =>
    simp only [List.cons_append, runCmds, M.bind_ok, ih]
    constructor
    · rintro ⟨W1, k1, h1, W2, k2, h2, h3⟩; exact ⟨W2, k2, ⟨W1, k1, h1, h2⟩, h3⟩
    · rintro ⟨W2, k2, ⟨W1, k1, h1, h2⟩, h3⟩; exact ⟨W1, k1, h1, W2, k2, h2, h3⟩

theorem runCmds_init {cmds : List (Cmd F)} (h : runCmds H W cmds n = .ok (W', m)) (hc : ∀ c ∈ cmds, c.setsInit = false) :
    W'.m.initPrimals = W.m.initPrimals := by
  induction cmds generalizing W n with
  | nil =>
    simp only [runCmds, M.pure_ok] at h
    rw [h.1]
  | cons c cs ih =>
    simp only [runCmds, M.bind_ok] at h
    obtain ⟨W1, k, h1, h2⟩ := h
    rw [ih h2 fun c hc' => hc c (by simp [hc']), c.keeps_init h1 (hc c (by simp))]

/-- C29: every column of the standard problem starts at the initial value of its variable, at 0 if there is none. -/
theorem C29_start (hr : ReachableW H W n) (h : W.m.stdProblem H n = .ok (sp, m)) {q : Minlp F} (hq : q ∈ sp.prob.views) :
    ∃ x0, q.x0 = some x0 ∧ x0.length = sp.var2index.length ∧
      ∀ x i, (x, i) ∈ sp.var2index → x0[i]? = some ((getN W.m.initPrimals x).getD zero) := by
  obtain ⟨hp, k, comp, e, ps, cols, xes, ves, hf, -⟩ := hr.facts h
  obtain ⟨h0, hw⟩ := hr.inv
  refine ⟨_, (hf.view hq).x0, by simp [stdX0, hf.v2i], fun x i hx => ?_⟩
  rw [hf.mem_v2i] at hx
  rw [stdX0, List.getElem?_map, hx, Option.map_some, valAt_perm hf.xesP (hw.initNd.perm (hf.xesP.map _).symm)]
  rfl

/-- C29: after a program whose last call of `set_init_primals` (on the current model) was given `vals`, every column starts at the
last value that `vals` gave to its variable, and at 0 if there is none. -/
theorem C29_last {pre post : List (Cmd F)} {vals : List (Nat × F)}
    (hrun : runCmds H World.start (pre ++ .setInitPrimals vals :: post) 0 = .ok (W, n)) (hpost : ∀ c ∈ post, c.setsInit = false)
    (h : W.m.stdProblem H n = .ok (sp, m)) {q : Minlp F} (hq : q ∈ sp.prob.views) :
    ∃ W0 k, runCmds H World.start pre 0 = .ok (W0, k) ∧ ∃ x0, q.x0 = some x0 ∧ x0.length = sp.var2index.length ∧
      ∀ x i, (x, i) ∈ sp.var2index → x0[i]? = some ((lastValue W0.regs vals x).getD zero) := by
  obtain ⟨x0, h1, h2, h3⟩ := C29_start ⟨_, hrun⟩ h hq
  rw [runCmds_append] at hrun
  obtain ⟨W0, k, hr0, hr1⟩ := hrun
  refine ⟨W0, k, hr0, x0, h1, h2, fun x i hx => ?_⟩
  rw [h3 x i hx]
  simp only [runCmds, M.bind_ok] at hr1
  obtain ⟨W1, k1, hc, hr1⟩ := hr1
  rw [runCmds_init hr1 hpost]
  simp only [Cmd.exec, M.bind_ok, M.pure_ok] at hc
  obtain ⟨m1, k2, hset, rfl, rfl⟩ := hc
  simp only [Model.setInitPrimals, M.bind_ok, M.pure_ok] at hset
  obtain ⟨es, k3, hit, rfl, rfl⟩ := hset
  have hperm := HashOrder.iter_perm hit
  have hnd := (foldl_insertN_keys (vals.filterMap fun e => (W0.regs[e.1]?).map fun a => (a, e.2)) [] (by simp [keysN, NodupP])).1
  have hnd' := hnd.perm (hperm.map _).symm
  simp only
  rw [foldl_insertN_nodup _ _ (by simpa [keysN] using hnd'), List.nil_append, getN_perm hperm hnd', init_values]

/-- C29: without a call of `set_init_primals` since the model was created, every column starts at 0. -/
theorem C29_never {pre post : List (Cmd F)}
    (hrun : runCmds H World.start (pre ++ post) 0 = .ok (W, n)) (hpre : pre = [] ∨ pre.getLast? = some .newModel)
    (hpost : ∀ c ∈ post, c.setsInit = false)
    (h : W.m.stdProblem H n = .ok (sp, m)) {q : Minlp F} (hq : q ∈ sp.prob.views) :
    q.x0 = some (List.replicate sp.var2index.length zero) := by
  obtain ⟨x0, h1, h2, h3⟩ := C29_start ⟨_, hrun⟩ h hq
  rw [runCmds_append] at hrun
  obtain ⟨W0, k, hr0, hr1⟩ := hrun
  have h0 : W0.m.initPrimals = [] := by
    rcases hpre with rfl | hpre
    · simp only [runCmds, M.pure_ok] at hr0
      rw [hr0.1]; rfl
    · obtain ⟨pre', rfl⟩ := List.getLast?_eq_some_iff.1 hpre
      rw [runCmds_append] at hr0
      obtain ⟨W1, k1, -, hr0⟩ := hr0
      simp only [runCmds, M.bind_ok, Cmd.exec, M.pure_ok] at hr0
      obtain ⟨_, _, ⟨rfl, rfl⟩, rfl, rfl⟩ := hr0
      rfl
  rw [runCmds_init hr1 hpost, h0] at h3
  rw [h1]
  congr 1
  obtain ⟨-, hb, -⟩ := C22_bijection ⟨_, (runCmds_append pre post _ _ _ _).2 ⟨W0, k, hr0, hr1⟩⟩ h
  refine List.ext_getElem? fun i => ?_
  by_cases hi : i < sp.var2index.length
  · obtain ⟨x, hx⟩ := (hb i).1 hi
    rw [h3 x i hx, List.getElem?_replicate_of_lt hi]
    rfl
  · rw [List.getElem?_eq_none (by omega), List.getElem?_eq_none (by simp; omega)]

end

/-- Non-vacuity of C29: the example program is of the form needed, and starts at `0, 0, 0, 2`. -/
example : ReachableW HashOrder.listOrder (worldOf exCmds) (wcount exCmds) ∧
    exSp.map (fun sp => sp.prob.views.map (·.x0)) = some [some [some 0, some 0, some 0, some 2]] :=
  ⟨(runsW_reachable (by decide +kernel) (by decide +kernel)).reachable, by decide +kernel⟩

end Verif
