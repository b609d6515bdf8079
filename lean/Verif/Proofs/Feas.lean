import Mathlib.Tactic.Linarith
import Verif.Proofs.WorldInv

/-! # Feasibility: pieces -/

set_option linter.unusedSectionVars false
set_option linter.unusedSimpArgs false

namespace Verif

open Exact

variable {K : Type} [Field K] [LinearOrder K] [IsStrictOrderedRing K] [Trig K]
variable {H : HashOrder} {l : Level} {h : Heap (Option K)} {n m : Nat}

/-- The value of an expression depends only on the variables in it. -/
theorem evaluate_congr_var {F : Type} [FloatOps F] {σ τ : Env F} (e : Node F)
    (h : ∀ x, x.isVar = true → Occurs x e → σ x.id = τ x.id) : e.evaluate σ = e.evaluate τ := by
  induction e using Node.ind with
  | const i v => rfl
  | var i s k => have := h _ rfl (.refl _); simp only [Node.id] at this; simp [Node.evaluate, this]
  | add i args ih =>
    have ih' : ∀ a ∈ args, a.evaluate σ = a.evaluate τ :=
      fun a ha => ih a ha fun x hx ho => h x hx (.arg (by simpa [Node.arguments] using ha) ho)
    simp only [Node.evaluate]
    clear h ih
    generalize (zero : F) = acc
    induction args generalizing acc with
    | nil => rfl
    | cons a as ih2 => simp only [Node.evaluate.sumFrom]; rw [ih' a (by simp), ih2 fun b hb => ih' b (by simp [hb])]
  | cos i a ih => simp only [Node.evaluate]; rw [ih fun x hx ho => h x hx (.arg (by simp [Node.arguments]) ho)]
  | sin i a ih => simp only [Node.evaluate]; rw [ih fun x hx ho => h x hx (.arg (by simp [Node.arguments]) ho)]
  | mul i a b iha ihb =>
    simp only [Node.evaluate]
    rw [iha fun x hx ho => h x hx (.arg (by simp [Node.arguments]) ho), ihb fun x hx ho => h x hx (.arg (by simp [Node.arguments]) ho)]
  | div i a b iha ihb =>
    simp only [Node.evaluate]
    rw [iha fun x hx ho => h x hx (.arg (by simp [Node.arguments]) ho), ihb fun x hx ho => h x hx (.arg (by simp [Node.arguments]) ho)]

theorem osum_perm {l1 l2 : List (Option K)} (hp : l1.Perm l2) : osum l1 = osum l2 := by
  induction hp with
  | nil => rfl
  | cons a _ ih => simp [ih]
  | swap a b l => simp only [osum_cons]; exact oadd_left_comm ..
  | trans _ _ ih1 ih2 => exact ih1.trans ih2

theorem lin_perm (σ : Env (Option K)) {m1 m2 : List (Node (Option K) × Option K)} (hp : m1.Perm m2) : lin σ m1 = lin σ m2 :=
  osum_perm (hp.map _)

/-- `lhs - rhs` -/
def Constraint.residual (c : Constraint (Option K)) (σ : Env (Option K)) : Option K := c.lhs.evaluate σ -. c.rhs.evaluate σ

theorem Constraint.holds_iff (c : Constraint (Option K)) (σ : Env (Option K)) :
    c.Holds σ ↔ ∃ d, c.residual σ = some d ∧ c.kind.Rel d 0 := by
  unfold Holds residual
  cases ha : c.lhs.evaluate σ with
  | none => simp
  | some a =>
    cases hb : c.rhs.evaluate σ with
    | none => simp
    | some b =>
      simp only [Option.some.injEq, sub_some, exists_and_left, exists_eq_left', CKind.Rel]
      cases c.kind <;> simp [sub_eq_zero]

theorem entriesOf_map (a : List (Node (Option K) × Option K)) (r : Nat) :
    entriesOf (a.map fun e => (r, e.1, e.2)) r = a := by
  unfold entriesOf
  rw [List.filter_eq_self.2 (by rintro _ he; obtain ⟨e, _, rfl⟩ := List.mem_map.1 he; simp)]
  simp [Function.comp_def]

/-- A piece holds exactly when the constraint holds and the slack is `lhs - rhs`. -/
theorem Piece.Ok.holds_iff {p : Piece (Option K)} (hp : p.Ok H l h n m) (hl : l ≠ .raw) (τ : Env (Option K)) :
    p.out.HoldsAt p.arow τ ↔ p.c.Holds τ ∧ ∀ s, p.slack = some s → s.evaluate τ = p.c.residual τ := by
  obtain ⟨k, hk⟩ := hp.exp
  have hexp : p.exp.evaluate τ = p.c.residual τ := subN_val hk τ
  have hphi := hp.prop.1
  have haff : p.isNl = false → p.c.residual τ = (lin τ p.comp.prop.a +. p.comp.prop.b) := by
    intro hn
    rw [← hexp, hp.prop.2]
    refine affine_val hl τ p.exp hp.goodExp ?_
    have := hp.affine
    rw [hn, hp.prop.2] at this
    exact this
  rw [Constraint.holds_iff]
  have hkindeq := hp.equal
  have hb1 := hp.bound
  have hle := hp.linEq
  have hli := hp.linIneq
  have hni := hp.nlIneq
  obtain ⟨c, exp, comp, arow, jrow, kind⟩ := p
  cases kind with
  | bound x =>
    obtain ⟨v, hv, h1⟩ := hb1 x rfl
    simp only at hv
    rw [one_def, eq_one_iff] at h1
    subst h1
    have hr := haff rfl
    simp only at hr
    rw [hv] at hr
    simp only [lin, List.map_cons, List.map_nil, osum_cons, osum_nil, oadd_zero, oone_mul] at hr
    simp only [Piece.slack, reduceCtorEq, false_imp_iff, implies_true, and_true]
    simp only [Piece.bnd, reduceCtorEq, iff_false] at hkindeq
    rw [hr]
    have hu : ∀ up, (Piece.mk c exp comp arow jrow (.bound x)).bounds up =
        if (decide (c.kind = .lessEqual)) = up then [(x, FloatOps.neg comp.prop.b, c)] else [] := fun up => rfl
    have hb : (Piece.mk c exp comp arow jrow (.bound x)).out.b = [] := rfl
    have hf : (Piece.mk c exp comp arow jrow (.bound x)).out.f = [] := rfl
    have e1 : (Piece.mk c exp comp arow jrow (.bound x)).out.u = _ := hu true
    have e2 : (Piece.mk c exp comp arow jrow (.bound x)).out.l = _ := hu false
    constructor
    · intro ⟨_, _, h3, h4⟩
      rw [e1] at h3
      rw [e2] at h4
      cases hc : c.kind with
      | equal => exact absurd hc hkindeq
      | lessEqual =>
        simp only [hc, decide_true, if_true, List.mem_singleton, forall_eq] at h3
        obtain ⟨y, w, hy, hw, hyw⟩ := h3
        cases hbb : comp.prop.b with
        | none => rw [hbb] at hw; cases hw
        | some b =>
          rw [hbb] at hw
          simp only [neg_some, Option.some.injEq] at hw
          refine ⟨y + b, by rw [hy]; rfl, ?_⟩
          simp only [CKind.Rel]; linarith
      | greaterEqual =>
        simp only [hc, reduceCtorEq, decide_false, if_true, List.mem_singleton, forall_eq] at h4
        obtain ⟨y, w, hy, hw, hyw⟩ := h4
        cases hbb : comp.prop.b with
        | none => rw [hbb] at hw; cases hw
        | some b =>
          rw [hbb] at hw
          simp only [neg_some, Option.some.injEq] at hw
          refine ⟨y + b, by rw [hy]; rfl, ?_⟩
          simp only [CKind.Rel]; linarith
    · rintro ⟨d, hd, hrel⟩
      obtain ⟨y, b, hy, hb', rfl⟩ := add_eq_some.1 hd
      refine ⟨by rw [hb]; simp, by rw [hf]; simp, ?_, ?_⟩
      · rw [e1]
        cases hc : c.kind with
        | equal => exact absurd hc hkindeq
        | lessEqual =>
          simp only [hc, CKind.Rel] at hrel
          simp only [decide_true, if_true, List.mem_singleton, forall_eq]
          exact ⟨y, -b, hy, by rw [hb']; rfl, by linarith⟩
        | greaterEqual => simp
      · rw [e2]
        cases hc : c.kind with
        | equal => exact absurd hc hkindeq
        | greaterEqual =>
          simp only [hc, CKind.Rel] at hrel
          simp only [reduceCtorEq, decide_false, if_true, List.mem_singleton, forall_eq]
          exact ⟨y, -b, hy, by rw [hb']; rfl, by linarith⟩
        | lessEqual => simp
  | linEq es =>
    have hr := haff rfl
    simp only at hr
    have hperm : es.Perm comp.prop.a := hle es rfl
    have hkind : c.kind = .equal := hkindeq.2 rfl
    rw [← lin_perm τ hperm] at hr
    simp only [Piece.slack, reduceCtorEq, false_imp_iff, implies_true, and_true, hkind, CKind.Rel, exists_eq_right]
    rw [hr]
    have e1 : (Piece.mk c exp comp arow jrow (.linEq es)).out.b = [FloatOps.neg comp.prop.b] := rfl
    have e2 : entriesOf (Piece.mk c exp comp arow jrow (.linEq es)).out.a arow = es := entriesOf_map ..
    constructor
    · intro ⟨h1, _, _, _⟩
      obtain ⟨t, ht, h2⟩ := h1 0 _ (by rw [e1]; rfl)
      rw [Nat.add_zero, affineValue_eq, oadd_zero, e2] at h2
      rw [h2]
      cases hb : comp.prop.b with
      | none => rw [hb] at ht; cases ht
      | some b =>
        rw [hb] at ht
        simp only [neg_some, Option.some.injEq] at ht
        rw [add_some, ← ht]; simp
    · intro hd
      obtain ⟨y, b, hy, hb', he⟩ := add_eq_some.1 hd
      refine ⟨?_, by simp [Piece.out, Piece.isNl], by simp [Piece.out, Piece.bounds, Piece.bnd], by simp [Piece.out, Piece.bounds, Piece.bnd]⟩
      intro i v hv
      rw [e1] at hv
      cases i with
      | succ i => simp at hv
      | zero =>
        simp only [List.getElem?_cons_zero, Option.some.injEq] at hv
        subst hv
        refine ⟨-b, by rw [hb']; rfl, ?_⟩
        rw [Nat.add_zero, affineValue_eq, oadd_zero, e2, hy]
        congr 1; linarith
  | linIneq es s =>
    have hr := haff rfl
    simp only at hr
    have hperm : es.Perm comp.prop.a := (hli es s rfl).1
    rw [← lin_perm τ hperm] at hr
    simp only [Piece.bnd, reduceCtorEq, iff_false] at hkindeq
    simp only [Piece.slack, Option.some.injEq, forall_eq']
    have e1 : (Piece.mk c exp comp arow jrow (.linIneq es s)).out.b = [FloatOps.neg comp.prop.b] := rfl
    have e2 : entriesOf (Piece.mk c exp comp arow jrow (.linIneq es s)).out.a arow = es ++ [(s, negOne)] := entriesOf_map ..
    have e3 : lin τ (es ++ [(s, negOne)]) = (lin τ es +. (some (-1) *. s.evaluate τ)) := by
      simp [lin, osum_append]
    have hu : ∀ up, (Piece.mk c exp comp arow jrow (.linIneq es s)).bounds up =
        if (decide (c.kind = .lessEqual)) = up then [(s, zero, c)] else [] := fun up => rfl
    have e4 : (Piece.mk c exp comp arow jrow (.linIneq es s)).out.u = _ := hu true
    have e5 : (Piece.mk c exp comp arow jrow (.linIneq es s)).out.l = _ := hu false
    constructor
    · intro ⟨h1, _, h3, h4⟩
      obtain ⟨t, ht, h2⟩ := h1 0 _ (by rw [e1]; rfl)
      rw [Nat.add_zero, affineValue_eq, oadd_zero, e2, e3] at h2
      obtain ⟨y, z, hy, hz, he⟩ := add_eq_some.1 h2
      obtain ⟨w, sv, hw, hs, hz'⟩ := mul_eq_some.1 hz
      injection hw with hw
      cases hb : comp.prop.b with
      | none => rw [hb] at ht; cases ht
      | some b =>
        rw [hb] at ht hr
        simp only [neg_some, Option.some.injEq] at ht
        rw [hy, add_some] at hr
        have hsv : sv = y + b := by subst hw; linarith
        refine ⟨⟨y + b, hr, ?_⟩, by rw [hs, hr, hsv]⟩
        rw [e4] at h3
        rw [e5] at h4
        rw [← hsv]
        cases hc : c.kind with
        | equal => exact absurd hc hkindeq
        | lessEqual =>
          simp only [hc, decide_true, if_true, List.mem_singleton, forall_eq, hs, zero_def, Option.some.injEq] at h3
          obtain ⟨x, v, rfl, rfl, hxv⟩ := h3
          exact hxv
        | greaterEqual =>
          simp only [hc, reduceCtorEq, decide_false, if_true, List.mem_singleton, forall_eq, hs, zero_def, Option.some.injEq] at h4
          obtain ⟨x, v, rfl, rfl, hxv⟩ := h4
          exact hxv
    · rintro ⟨⟨d, hd, hrel⟩, hs⟩
      rw [hd] at hr hs
      obtain ⟨y, b, hy, hb', he⟩ := add_eq_some.1 hr.symm
      refine ⟨?_, by simp [Piece.out, Piece.isNl], ?_, ?_⟩
      · intro i v hv
        rw [e1] at hv
        cases i with
        | succ i => simp at hv
        | zero =>
          simp only [List.getElem?_cons_zero, Option.some.injEq] at hv
          subst hv
          refine ⟨-b, by rw [hb']; rfl, ?_⟩
          rw [Nat.add_zero, affineValue_eq, oadd_zero, e2, e3, hy, hs, mul_some, add_some]
          congr 1; linarith
      · rw [e4]
        cases hc : c.kind with
        | equal => exact absurd hc hkindeq
        | lessEqual =>
          simp only [hc, CKind.Rel] at hrel
          simp only [decide_true, if_true, List.mem_singleton, forall_eq]
          exact ⟨d, 0, hs, rfl, hrel⟩
        | greaterEqual => simp
      · rw [e5]
        cases hc : c.kind with
        | equal => exact absurd hc hkindeq
        | greaterEqual =>
          simp only [hc, CKind.Rel] at hrel
          simp only [reduceCtorEq, decide_false, if_true, List.mem_singleton, forall_eq]
          exact ⟨d, 0, hs, rfl, hrel⟩
        | lessEqual => simp
  | nlEq =>
    have hkind : c.kind = .equal := hkindeq.2 rfl
    simp only [Piece.slack, reduceCtorEq, false_imp_iff, implies_true, and_true, hkind, CKind.Rel, exists_eq_right]
    have e1 : (Piece.mk c exp comp arow jrow .nlEq).out.f = [comp.phi] := rfl
    simp only at hphi hexp
    constructor
    · intro ⟨_, h2, _, _⟩
      have := h2 comp.phi (by rw [e1]; simp)
      rw [hphi, hexp] at this
      exact this
    · intro hd
      refine ⟨by simp [Piece.out, Piece.isLin], ?_, by simp [Piece.out, Piece.bounds, Piece.bnd], by simp [Piece.out, Piece.bounds, Piece.bnd]⟩
      rw [e1]
      simp only [List.mem_singleton, forall_eq]
      rw [hphi, hexp, hd]
  | nlIneq s f m1 =>
    obtain ⟨_, ⟨k1, k2, hsub⟩, _⟩ := hni s f m1 rfl
    have hf := subN_val hsub τ
    simp only at hf hphi hexp
    rw [hphi, hexp] at hf
    simp only [Piece.bnd, reduceCtorEq, iff_false] at hkindeq
    simp only [Piece.slack, Option.some.injEq, forall_eq']
    have e1 : (Piece.mk c exp comp arow jrow (.nlIneq s f m1)).out.f = [f] := rfl
    have hu : ∀ up, (Piece.mk c exp comp arow jrow (.nlIneq s f m1)).bounds up =
        if (decide (c.kind = .lessEqual)) = up then [(s, zero, c)] else [] := fun up => rfl
    have e4 : (Piece.mk c exp comp arow jrow (.nlIneq s f m1)).out.u = _ := hu true
    have e5 : (Piece.mk c exp comp arow jrow (.nlIneq s f m1)).out.l = _ := hu false
    constructor
    · intro ⟨_, h2, h3, h4⟩
      have h2 := h2 f (by rw [e1]; simp)
      rw [hf] at h2
      cases hres : c.residual τ with
      | none => rw [hres] at h2; simp at h2
      | some d =>
        cases hs : s.evaluate τ with
        | none => rw [hres, hs] at h2; simp at h2
        | some sv =>
          rw [hres, hs, sub_some, Option.some.injEq, sub_eq_zero] at h2
          subst h2
          refine ⟨⟨d, rfl, ?_⟩, rfl⟩
          rw [e4] at h3
          rw [e5] at h4
          cases hc : c.kind with
          | equal => exact absurd hc hkindeq
          | lessEqual =>
            simp only [hc, decide_true, if_true, List.mem_singleton, forall_eq, hs, zero_def, Option.some.injEq] at h3
            obtain ⟨x, v, rfl, rfl, hxv⟩ := h3
            exact hxv
          | greaterEqual =>
            simp only [hc, reduceCtorEq, decide_false, if_true, List.mem_singleton, forall_eq, hs, zero_def, Option.some.injEq] at h4
            obtain ⟨x, v, rfl, rfl, hxv⟩ := h4
            exact hxv
    · rintro ⟨⟨d, hd, hrel⟩, hs⟩
      rw [hd] at hs
      refine ⟨by simp [Piece.out, Piece.isLin], ?_, ?_, ?_⟩
      · rw [e1]
        simp only [List.mem_singleton, forall_eq]
        rw [hf, hd, hs, sub_some, sub_self]
      · rw [e4]
        cases hc : c.kind with
        | equal => exact absurd hc hkindeq
        | lessEqual =>
          simp only [hc, CKind.Rel] at hrel
          simp only [decide_true, if_true, List.mem_singleton, forall_eq]
          exact ⟨d, 0, hs, rfl, hrel⟩
        | greaterEqual => simp
      · rw [e5]
        cases hc : c.kind with
        | equal => exact absurd hc hkindeq
        | greaterEqual =>
          simp only [hc, CKind.Rel] at hrel
          simp only [reduceCtorEq, decide_false, if_true, List.mem_singleton, forall_eq]
          exact ⟨d, 0, hs, rfl, hrel⟩
        | lessEqual => simp

end Verif
