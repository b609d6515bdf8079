import Verif.Proofs.Feas
import Verif.Spec.ExampleW

/-!
# Properties of constraints: C18 – C21
-/

set_option linter.unusedSectionVars false
set_option linter.unusedSimpArgs false

namespace Verif

open Exact

/-! ## C18 violation -/

section
variable {K : Type} [Field K] [LinearOrder K] [IsStrictOrderedRing K] [Trig K]

/-- C18: where both sides have values `a` and `b`, the violation is the distance by which the constraint fails: `|a - b|` for
`==`, the part of `a - b` above 0 for `<=` and of `b - a` for `>=`. -/
theorem C18_distance (c : Constraint (Option K)) (σ : Env (Option K)) {a b : K} (ha : c.lhs.evaluate σ = some a)
    (hb : c.rhs.evaluate σ = some b) :
    c.violation σ = some (match c.kind with | .equal => |a - b| | .lessEqual => max 0 (a - b) | .greaterEqual => max 0 (b - a)) := by
  unfold Constraint.violation
  rw [ha, hb]
  cases c.kind with
  | equal =>
    simp only [sub_some]
    show some (if 0 ≤ a - b then a - b else -(a - b)) = _
    congr 1
    split
    · rename_i h; exact (abs_of_nonneg h).symm
    · rename_i h; exact (abs_of_neg (not_le.1 h)).symm
  | lessEqual =>
    simp only [sub_some]
    show some (if 0 ≤ a - b then a - b else 0) = _
    rw [max_def]
  | greaterEqual =>
    simp only [sub_some]
    show some (if 0 ≤ b - a then b - a else 0) = _
    rw [max_def]

/-- C18: where both sides have values the violation is zero if and only if the constraint holds. -/
theorem C18_zero_iff (c : Constraint (Option K)) (σ : Env (Option K)) {a b : K} (ha : c.lhs.evaluate σ = some a)
    (hb : c.rhs.evaluate σ = some b) : c.violation σ = some 0 ↔ c.Holds σ := by
  rw [C18_distance c σ ha hb]
  unfold Constraint.Holds
  simp only [ha, hb, Option.some.injEq, exists_and_left, exists_eq_left', CKind.Rel]
  cases c.kind <;> simp [sub_eq_zero]

/-- C18: the violation is never negative, at any assignment (missing values included). -/
theorem C18_nonneg (c : Constraint (Option K)) (σ : Env (Option K)) {d : K} (h : c.violation σ = some d) : 0 ≤ d := by
  cases ha : c.lhs.evaluate σ with
  | some a =>
    cases hb : c.rhs.evaluate σ with
    | some b =>
      rw [C18_distance c σ ha hb] at h
      injection h with h
      subst h
      cases c.kind <;> simp
    | none =>
      unfold Constraint.violation at h
      rw [ha, hb] at h
      revert h
      cases c.kind <;> simp [FloatOps.abs, FloatOps.max, Exact.max]
      all_goals (rintro rfl; exact le_refl _)
  | none =>
    unfold Constraint.violation at h
    rw [ha] at h
    revert h
    cases c.kind <;> simp [FloatOps.abs, FloatOps.max, Exact.max]
    all_goals (rintro rfl; exact le_refl _)

/-- C18, what happens outside its domain: where a side has no value the violation of `<=` and `>=` is nevertheless 0 (because
`f64::max` ignores NaN), that of `==` is missing. -/
theorem C18_missing (c : Constraint (Option K)) (σ : Env (Option K)) (h : c.lhs.evaluate σ = none ∨ c.rhs.evaluate σ = none) :
    c.violation σ = match c.kind with | .equal => none | .lessEqual => some 0 | .greaterEqual => some 0 := by
  unfold Constraint.violation
  rcases h with h | h <;> rw [h] <;> cases c.kind <;> simp [FloatOps.abs, FloatOps.max, Exact.max]

end

/-- Non-vacuity of C18: `x*y <= 5` at (2, 3) is violated by 1, and at (2, 2) it holds. -/
example :
    let cmds : List (Cmd Q) := [.expr (.var "x" .continuous), .expr (.var "y" .continuous), .expr (.mul 0 1),
      .cmpNodeScalar .lessEqual 2 (some 5) "c"]
    let c := (worldOf cmds).cs[0]!
    c.lhs.evaluate (envOf [(0, 2), (1, 3)]) = some 6 ∧ c.rhs.evaluate (envOf [(0, 2), (1, 3)]) = some 5 ∧
    c.violation (envOf [(0, 2), (1, 3)]) = some 1 ∧ c.violation (envOf [(0, 2), (1, 2)]) = some 0 := by decide +kernel

/-! ## C19 comparison methods -/

section
variable {F : Type} [FloatOps F]

/-- C19: the comparisons of two expressions always return, with the given sides, kind and label. -/
theorem C19_node_node (a b : Node F) (tag : String) (n : Nat) :
    (∃ i m, equalNN a b tag n = .ok (⟨i, a, .equal, b, tag⟩, m)) ∧
    (∃ i m, leqNN a b tag n = .ok (⟨i, a, .lessEqual, b, tag⟩, m)) ∧
    (∃ i m, geqNN a b tag n = .ok (⟨i, a, .greaterEqual, b, tag⟩, m)) :=
  ⟨⟨_, _, rfl⟩, ⟨_, _, rfl⟩, ⟨_, _, rfl⟩⟩

/-- C19: the comparisons of an expression with a number; the number becomes a constant on the right. -/
theorem C19_node_scalar (a : Node F) (v : F) (tag : String) (n : Nat) :
    (∃ i j m, equalNS a v tag n = .ok (⟨i, a, .equal, .const j v, tag⟩, m)) ∧
    (∃ i j m, leqNS a v tag n = .ok (⟨i, a, .lessEqual, .const j v, tag⟩, m)) ∧
    (∃ i j m, geqNS a v tag n = .ok (⟨i, a, .greaterEqual, .const j v, tag⟩, m)) :=
  ⟨⟨_, _, _, rfl⟩, ⟨_, _, _, rfl⟩, ⟨_, _, _, rfl⟩⟩

/-- C19: the comparisons of a number with an expression; the number becomes a constant on the left. -/
theorem C19_scalar_node (v : F) (b : Node F) (tag : String) (n : Nat) :
    (∃ i j m, equalSN v b tag n = .ok (⟨i, .const j v, .equal, b, tag⟩, m)) ∧
    (∃ i j m, leqSN v b tag n = .ok (⟨i, .const j v, .lessEqual, b, tag⟩, m)) ∧
    (∃ i j m, geqSN v b tag n = .ok (⟨i, .const j v, .greaterEqual, b, tag⟩, m)) :=
  ⟨⟨_, _, _, rfl⟩, ⟨_, _, _, rfl⟩, ⟨_, _, _, rfl⟩⟩

/-- C19: after any history, two constraints obtained from different calls are different, and each equals itself: `==` compares
identity. -/
theorem C19_identity {H : HashOrder} {W : World F} {n : Nat} (hr : ReachableW H W n) {i j : Nat} {c d : Constraint F}
    (hc : W.cs[i]? = some c) (hd : W.cs[j]? = some d) : c.ptrEq d = true ↔ i = j := by
  obtain ⟨hp, hw⟩ := hr.inv
  have hne := hw.csNd
  simp only [Constraint.ptrEq, beq_iff_eq]
  obtain ⟨hi, rfl⟩ := List.getElem?_eq_some_iff.1 hc
  obtain ⟨hj, rfl⟩ := List.getElem?_eq_some_iff.1 hd
  rw [List.pairwise_iff_getElem] at hne
  constructor
  · intro h
    rcases Nat.lt_trichotomy i j with hlt | rfl | hlt
    · exact absurd h (hne i j hi hj hlt)
    · rfl
    · exact absurd h.symm (hne j i hj hi hlt)
  · rintro rfl; rfl

/-- C19: a comparison adds exactly one constraint handle and changes nothing else, in any state. -/
theorem C19_adds {H : HashOrder} {W W' : World F} {n m : Nat} {k : CKind} {i j : Nat} {tag : String} {a b : Node F}
    (ha : W.regs[i]? = some a) (hb : W.regs[j]? = some b) (h : (Cmd.cmpNodeNode k i j tag).exec H W n = .ok (W', m)) :
    ∃ c, W' = { W with cs := W.cs ++ [c] } ∧ c.lhs = a ∧ c.rhs = b ∧ c.kind = k ∧ c.label = tag := by
  simp only [Cmd.exec, ha, hb, M.bind_ok, M.pure_ok] at h
  obtain ⟨c, k1, hc, rfl, rfl⟩ := h
  have : newConstraint a k b tag n = .ok (c, m) := by cases k <;> exact hc
  obtain ⟨rfl, rfl⟩ := newConstraint_ok this
  exact ⟨_, rfl, rfl, rfl, rfl, rfl⟩

end

/-- Non-vacuity of C19: two constraints with the same sides are different constraints. -/
example :
    let cmds : List (Cmd Q) := [.expr (.var "x" .continuous), .cmpNodeScalar .lessEqual 0 (some 5) "c", .cmpNodeScalar .lessEqual 0 (some 5) "c"]
    ReachableApiW HashOrder.listOrder (worldOf cmds) (wcount cmds) ∧ (worldOf cmds).cs.length = 2 ∧
      ((worldOf cmds).cs[0]!).ptrEq ((worldOf cmds).cs[1]!) = false :=
  ⟨runsW_reachable (by decide +kernel) (by decide +kernel), by decide +kernel, by decide +kernel⟩

/-! ## C20 one bound, one linear row or one nonlinear row -/

/-- A bound and no row. -/
structure ConstrComp.IsBound {F : Type} (cc : ConstrComp F) : Prop where
  one : cc.u.length + cc.l.length = 1
  noLinear : cc.a = [] ∧ cc.b = [] ∧ cc.ca = []
  noNonlinear : cc.f = [] ∧ cc.j = [] ∧ cc.h = [] ∧ cc.cj = []

/-- One linear row, number `arow`. -/
structure ConstrComp.IsLinear {F : Type} (cc : ConstrComp F) (c : Constraint F) (arow : Nat) : Prop where
  row : cc.b.length = 1 ∧ cc.ca = [c] ∧ ∀ e ∈ cc.a, e.1 = arow
  noNonlinear : cc.f = [] ∧ cc.j = [] ∧ cc.h = [] ∧ cc.cj = []

/-- One nonlinear row, number `jrow`. -/
structure ConstrComp.IsNonlinear {F : Type} (cc : ConstrComp F) (c : Constraint F) (jrow : Nat) : Prop where
  row : cc.f.length = 1 ∧ cc.h.length = 1 ∧ cc.cj = [c] ∧ ∀ e ∈ cc.j, e.1 = jrow
  noLinear : cc.a = [] ∧ cc.b = [] ∧ cc.ca = []

section
variable {F : Type} [FloatOps F]

/-- C20: standardising any constraint of any history gives a bound and no row, or one linear row, or one nonlinear row (these
exclude each other); the counters advance by the number of rows of each kind; a row of an inequality comes with exactly one
bound, on a variable created by this call, and the row of an equality with none; all bounds carry the constraint. -/
theorem C20_one {H : HashOrder} {W : World F} {n m : Nat} (hr : ReachableW H W n) {c : Constraint F} (hc : c ∈ W.cs)
    {arow jrow arow' jrow' : Nat} {cc : ConstrComp F} (h : c.stdComponents H arow jrow n = .ok ((cc, arow', jrow'), m)) :
    ((cc.IsBound ∧ c.kind ≠ .equal ∧ arow' = arow ∧ jrow' = jrow) ∨
     (cc.IsLinear c arow ∧ arow' = arow + 1 ∧ jrow' = jrow) ∨
     (cc.IsNonlinear c jrow ∧ arow' = arow ∧ jrow' = jrow + 1)) ∧
    cc.u.length + cc.l.length = (if c.kind = .equal then 0 else 1) ∧
    (∀ e ∈ cc.u, c.kind = .lessEqual ∧ e.2.2 = c ∧ (¬ cc.IsBound → n ≤ e.1.id ∧ e.2.1 = zero)) ∧
    (∀ e ∈ cc.l, c.kind = .greaterEqual ∧ e.2.2 = c ∧ (¬ cc.IsBound → n ≤ e.1.id ∧ e.2.1 = zero)) ∧
    cc.prop.length = 1 := by
  obtain ⟨hp, hw⟩ := hr.inv
  obtain ⟨h1, -, -, -, p, hok, rfl, rfl, rfl, hres⟩ := spec_constr hw.heap (hw.cs c hc).1 (hw.cs c hc).2.1 _ _ h
  simp only [Prod.mk.injEq] at hres
  obtain ⟨rfl, rfl, rfl⟩ := hres
  have hlen : (p.out).u.length + (p.out).l.length = if p.bnd = none then 0 else 1 := by
    simp only [Piece.out, Piece.bounds]
    cases hb : p.bnd with
    | none => rfl
    | some b => obtain ⟨d, x, v⟩ := b; cases d <;> simp
  have hlen' : (p.out).u.length + (p.out).l.length = if p.c.kind = .equal then 0 else 1 := by
    rw [hlen]; simp only [hok.equal]
  have hbnd : ∀ up, ∀ e ∈ p.bounds up, p.c.kind = (if up then .lessEqual else .greaterEqual) ∧ e.2.2 = p.c ∧
      (¬ p.out.IsBound → n ≤ e.1.id ∧ e.2.1 = zero) := by
    intro up e he
    have hne : p.c.kind ≠ .equal := by
      intro hh
      simp [Piece.bounds, hok.equal.1 hh] at he
    have hd : ∀ x v, p.bnd = some (decide (p.c.kind = .lessEqual), x, v) → e = (x, v, p.c) ∧ p.c.kind = (if up then .lessEqual else .greaterEqual) := by
      intro x v hb
      simp only [Piece.bounds, hb] at he
      split at he
      · rename_i hu
        simp only [List.mem_singleton] at he
        refine ⟨he, ?_⟩
        rw [← hu]
        cases hk : p.c.kind
        · exact absurd hk hne
        · simp
        · simp
      · simp at he
    cases hkind : p.kind with
    | bound x =>
      obtain ⟨rfl, h2⟩ := hd x (FloatOps.neg p.comp.prop.b) (by simp only [Piece.bnd, hkind])
      refine ⟨h2, rfl, fun hnb => absurd ?_ hnb⟩
      refine ⟨by rw [hlen', if_neg hne], ?_, ?_⟩ <;>
        simp [Piece.out, Piece.coefs, Piece.isLin, Piece.isNl, Piece.jac, hkind]
    | linEq es => exact absurd (hok.equal.2 (by simp only [Piece.bnd, hkind])) hne
    | nlEq => exact absurd (hok.equal.2 (by simp only [Piece.bnd, hkind])) hne
    | linIneq es s =>
      obtain ⟨rfl, h2⟩ := hd s zero (by simp only [Piece.bnd, hkind])
      obtain ⟨_, i, str, rfl, hi, _⟩ := hok.slack s (by simp [Piece.slack, hkind])
      exact ⟨h2, rfl, fun _ => ⟨hi, rfl⟩⟩
    | nlIneq s f m1 =>
      obtain ⟨rfl, h2⟩ := hd s zero (by simp only [Piece.bnd, hkind])
      obtain ⟨_, i, str, rfl, hi, _⟩ := hok.slack s (by simp [Piece.slack, hkind])
      exact ⟨h2, rfl, fun _ => ⟨hi, rfl⟩⟩
  refine ⟨?_, hlen', hbnd true, hbnd false, by simp [Piece.out]⟩
  have hj : p.isNl = false → p.jac = [] := by
    intro hh; unfold Piece.jac; unfold Piece.isNl at hh; split <;> simp_all
  have hco : p.isLin = false → p.coefs = [] := by
    intro hh; unfold Piece.coefs; unfold Piece.isLin at hh; split <;> simp_all
  cases hl : p.isLin
  · cases hn : p.isNl
    · have hb : p.bnd ≠ none := by
        unfold Piece.isLin at hl; unfold Piece.isNl at hn; unfold Piece.bnd
        cases hk : p.kind <;> simp [hk] at hl hn ⊢
      refine .inl ⟨⟨?_, by simp [Piece.out, hl, hco hl], by simp [Piece.out, hn, hj hn]⟩, ?_, by simp, by simp⟩
      · rw [hlen, if_neg hb]
      · rw [Ne, hok.equal]; exact hb
    · refine .inr (.inr ⟨⟨by simp [Piece.out, hn]; rintro _ _ _ _ _ _ rfl _ _; rfl, by simp [Piece.out, hl, hco hl]⟩, by simp, by simp⟩)
  · have hn : p.isNl = false := by
      unfold Piece.isLin at hl; unfold Piece.isNl
      split at hl <;> simp_all
    refine .inr (.inl ⟨⟨by simp [Piece.out, hl]; rintro _ _ _ _ _ _ rfl _ _; rfl, by simp [Piece.out, hn, hj hn]⟩, by simp [hn], by simp [hn]⟩)

/-- C20, which of the three: with `e = lhs - rhs` as the code forms it, the result is a bound exactly when `e` is affine in a
single variable with coefficient 1 and the constraint is an inequality; otherwise it is a linear row exactly when `e` is affine. -/
theorem C20_class {H : HashOrder} {W : World F} {n m : Nat} (hr : ReachableW H W n) {c : Constraint F} (hc : c ∈ W.cs)
    {arow jrow arow' jrow' : Nat} {cc : ConstrComp F} (h : c.stdComponents H arow jrow n = .ok ((cc, arow', jrow'), m)) :
    ∃ e k, subN c.lhs c.rhs n = .ok (e, k) ∧
      (cc.IsBound ↔ e.stdProperties.affine = true ∧ c.kind ≠ .equal ∧ ∃ x v, e.stdProperties.a = [(x, v)] ∧ (v ==. one) = true) ∧
      (cc.IsNonlinear c jrow ↔ e.stdProperties.affine = false) := by
  obtain ⟨hp, hw⟩ := hr.inv
  obtain ⟨h1, -, -, -, p, hok, rfl, rfl, rfl, hres⟩ := spec_constr hw.heap (hw.cs c hc).1 (hw.cs c hc).2.1 _ _ h
  simp only [Prod.mk.injEq] at hres
  obtain ⟨rfl, rfl, rfl⟩ := hres
  obtain ⟨k, hk⟩ := hok.exp
  refine ⟨p.exp, k, hk, ?_, ?_⟩
  · rw [← hok.prop.2]
    constructor
    · intro hb
      have h1 : p.isLin = false := by
        have := hb.noLinear.2.2
        cases hh : p.isLin <;> simp [Piece.out, hh] at this ⊢
      have h2 : p.isNl = false := by
        have := hb.noNonlinear.1
        cases hh : p.isNl <;> simp [Piece.out, hh] at this ⊢
      cases hkind : p.kind with
      | bound x =>
        obtain ⟨v, hv⟩ := hok.bound x hkind
        refine ⟨by rw [hok.affine, h2]; rfl, ?_, x, v, hv⟩
        rw [Ne, hok.equal]; simp [Piece.bnd, hkind]
      | _ => simp [Piece.isLin, Piece.isNl, hkind] at h1 h2
    · rintro ⟨ha, hne, x, v, hv, h1⟩
      have : ∃ x, p.kind = .bound x := by
        by_contra hno
        have := hok.notBound fun x hx => hno ⟨x, hx⟩
        unfold Constraint.boundVar at this
        simp only [hv, ha, h1, Bool.true_and, bne_iff_ne, ne_eq, hne, not_false_eq_true, if_true, reduceCtorEq] at this
      obtain ⟨y, hy⟩ := this
      refine ⟨?_, by simp [Piece.out, Piece.isLin, Piece.coefs, hy], by simp [Piece.out, Piece.isNl, Piece.jac, hy]⟩
      simp only [Piece.out, Piece.bounds, Piece.bnd, hy]
      cases hk : p.c.kind <;> simp_all
  · rw [← hok.prop.2, hok.affine]
    constructor
    · intro hb
      have := hb.row.1
      cases hh : p.isNl <;> simp [Piece.out, hh] at this ⊢
    · intro hn
      have hn : p.isNl = true := by simpa using hn
      have hl : p.isLin = false := by
        unfold Piece.isNl at hn; unfold Piece.isLin
        split at hn <;> simp_all
      have hco : p.coefs = [] := by
        unfold Piece.coefs; unfold Piece.isLin at hl; split <;> simp_all
      exact ⟨by simp [Piece.out, hn]; rintro _ _ _ _ _ _ rfl _ _; rfl, by simp [Piece.out, hl, hco]⟩

end

/-- Non-vacuity of C20: `x <= 5` gives a bound, `x + y >= 1` a linear row, `x*y == 1` a nonlinear row. -/
example :
    let cmds : List (Cmd Q) := [.expr (.var "x" .continuous), .expr (.var "y" .continuous), .expr (.add 0 1), .expr (.mul 0 1),
      .cmpNodeScalar .lessEqual 0 (some 5) "", .cmpNodeScalar .greaterEqual 2 (some 1) "", .cmpNodeScalar .equal 3 (some 1) ""]
    ReachableApiW HashOrder.listOrder (worldOf cmds) (wcount cmds) ∧ (worldOf cmds).cs.map (fun c =>
      (resultOf (c.stdComponents HashOrder.listOrder 7 8) (wcount cmds)).map fun r => (r.1.u.length, r.1.b.length, r.1.f.length, r.2)) =
      [some (1, 0, 0, 7, 8), some (0, 1, 0, 8, 8), some (0, 0, 1, 7, 9)] :=
  ⟨runsW_reachable (by decide +kernel) (by decide +kernel), by decide +kernel⟩

/-! ## C21 equivalence -/

section
variable {K : Type} [Field K] [LinearOrder K] [IsStrictOrderedRing K] [Trig K]

/-- C21: at every assignment `τ` (missing values included) the rows and bounds produced for a constraint hold if and only if the
constraint holds and the variable created by the call, if there is one (the slack), has the value of `lhs - rhs`. -/
theorem C21_exact {H : HashOrder} {W : World (Option K)} {n m : Nat} (hr : ReachableApiW H W n) {c : Constraint (Option K)}
    (hc : c ∈ W.cs) {arow jrow : Nat} {r : ConstrComp (Option K) × Nat × Nat} (h : c.stdComponents H arow jrow n = .ok (r, m))
    (τ : Env (Option K)) :
    r.1.HoldsAt arow τ ↔ c.Holds τ ∧ ∀ e ∈ r.1.u ++ r.1.l, n ≤ e.1.id → e.1.evaluate τ = (c.lhs.evaluate τ -. c.rhs.evaluate τ) := by
  obtain ⟨hp, hw⟩ := hr.inv
  obtain ⟨h1, hle, -, -, p, hok, rfl, rfl, rfl, rfl⟩ := spec_constr hw.heap (hw.cs c hc).1 (hw.cs c hc).2.1 _ _ h
  rw [hok.holds_iff (by simp)]
  refine and_congr Iff.rfl ?_
  have hmem : ∀ e, e ∈ p.out.u ++ p.out.l ↔ ∃ d x v, p.bnd = some (d, x, v) ∧ e = (x, v, p.c) := by
    intro e
    simp only [Piece.out, Piece.bounds]
    cases hb : p.bnd with
    | none => simp
    | some b => obtain ⟨d, x, v⟩ := b; cases d <;> simp
  constructor
  · intro hs e he hn
    obtain ⟨d, x, v, hb, rfl⟩ := (hmem e).1 he
    cases hsl : p.slack with
    | some s =>
      have : s = x := by
        unfold Piece.bnd at hb; unfold Piece.slack at hsl
        split at hsl <;> simp_all
      subst this
      exact hs s hsl
    | none =>
      exfalso
      rcases hok.bndKeys hb with ⟨h1, h2⟩ | h2
      · have hg := (hw.cs p.c hc)
        rcases (hok.vars h1).1 h2 with ho | ho
        · have := (hg.1.sub ho).lt hw.heap; simp only at hn this; omega
        · have := (hg.2.1.sub ho).lt hw.heap; simp only at hn this; omega
      · rw [hsl] at h2; cases h2
  · intro hs s hsl
    obtain ⟨_, i, str, rfl, hi, _⟩ := hok.slack s hsl
    have : ∃ d v, p.bnd = some (d, Node.var i str .continuous, v) := by
      unfold Piece.bnd; unfold Piece.slack at hsl
      split at hsl <;> simp_all
    obtain ⟨d, v, hb⟩ := this
    exact hs (Node.var i str .continuous, v, p.c) ((hmem _).2 ⟨d, _, v, hb, rfl⟩) hi

/-- C21: the constraint holds at `σ` if and only if the rows and bounds hold for some value of what the call created (`σ'` agrees
with `σ` on everything that existed before). -/
theorem C21_slack {H : HashOrder} {W : World (Option K)} {n m : Nat} (hr : ReachableApiW H W n) {c : Constraint (Option K)}
    (hc : c ∈ W.cs) {arow jrow : Nat} {r : ConstrComp (Option K) × Nat × Nat} (h : c.stdComponents H arow jrow n = .ok (r, m))
    (σ : Env (Option K)) :
    c.Holds σ ↔ ∃ σ' : Env (Option K), (∀ i < n, σ' i = σ i) ∧ r.1.HoldsAt arow σ' := by
  obtain ⟨hp, hw⟩ := hr.inv
  have hcongr : ∀ σ' : Env (Option K), (∀ i < n, σ' i = σ i) →
      c.lhs.evaluate σ' = c.lhs.evaluate σ ∧ c.rhs.evaluate σ' = c.rhs.evaluate σ := fun σ' hσ =>
    ⟨evaluate_congr_var _ fun x _ ho => hσ _ (((hw.cs c hc).1.sub ho).lt hw.heap),
     evaluate_congr_var _ fun x _ ho => hσ _ (((hw.cs c hc).2.1.sub ho).lt hw.heap)⟩
  have hh : ∀ σ' : Env (Option K), (∀ i < n, σ' i = σ i) → (c.Holds σ' ↔ c.Holds σ) := fun σ' hσ => by
    unfold Constraint.Holds; rw [(hcongr σ' hσ).1, (hcongr σ' hσ).2]
  constructor
  · intro hs
    let v := c.lhs.evaluate σ -. c.rhs.evaluate σ
    let σ' : Env (Option K) := fun i => if i < n then σ i else some v
    have hσ : ∀ i < n, σ' i = σ i := fun i hi => by simp [σ', hi]
    refine ⟨σ', hσ, (C21_exact hr hc h σ').2 ⟨(hh σ' hσ).2 hs, fun e he hn => ?_⟩⟩
    rw [(hcongr σ' hσ).1, (hcongr σ' hσ).2]
    have hvar : e.1.isVar = true := by
      obtain ⟨h1, hle, -, -, p, hok, rfl, rfl, rfl, rfl⟩ := spec_constr hw.heap (hw.cs c hc).1 (hw.cs c hc).2.1 _ _ h
      simp only [Piece.out, Piece.bounds] at he
      cases hb : p.bnd with
      | none => simp [hb] at he
      | some b =>
        obtain ⟨d, x, w⟩ := b
        have hx : e.1 = x := by cases d <;> simp [hb] at he <;> rw [he]
        rw [hx]
        rcases hok.bndKeys hb with h | h
        · exact h.1
        · obtain ⟨_, _, _, he', _⟩ := hok.slack _ h
          simp only at he'
          rw [he']; rfl
    obtain ⟨x, w, d⟩ := e
    cases x <;> simp [Node.isVar] at hvar
    rename_i i s k
    simp only [Node.id] at hn
    simp [Node.evaluate, σ', Nat.not_lt.2 hn, v]
  · rintro ⟨σ', hσ, hs⟩
    exact (hh σ' hσ).1 ((C21_exact hr hc h σ').1 hs).1

end

/-- Non-vacuity of C21: `x*y <= 5` is standardised after such a history; at (2, 2) it holds, with slack `-1`. -/
example :
    let cmds : List (Cmd Q) := [.expr (.var "x" .continuous), .expr (.var "y" .continuous), .expr (.mul 0 1),
      .cmpNodeScalar .lessEqual 2 (some 5) "c"]
    ReachableApiW HashOrder.listOrder (worldOf cmds) (wcount cmds) ∧
    (resultOf (((worldOf cmds).cs[0]!).stdComponents HashOrder.listOrder 0 0) (wcount cmds)).map
      (fun r => (r.1.u.map fun e => (e.1.name, decide (wcount cmds ≤ e.1.id), e.2.1), r.1.f.map fun f =>
        f.evaluate (envOf [(0, 2), (1, 2), ((r.1.u[0]!).1.id, -1)]))) = some ([("_s_j0_", true, some 0)], [some 0]) :=
  ⟨runsW_reachable (by decide +kernel) (by decide +kernel), by decide +kernel⟩

end Verif
