import Mathlib.Tactic.Linarith
import Verif.Spec.Tolerance
import Verif.Proofs.Feas2
import Verif.Proofs.Bounds

/-! # Feasibility up to tolerances -/

set_option linter.unusedSectionVars false
set_option linter.unusedSimpArgs false

namespace Verif

open Exact

variable {K : Type} [Field K] [LinearOrder K] [IsStrictOrderedRing K] [Trig K]

section
variable {H : HashOrder} {l : Level} {h : Heap (Option K)} {n m : Nat}

/-- A piece holds within tolerances exactly when: an equality holds within `δ`, a bound within `ε`, and the slack of another
inequality is within `δ` of `lhs - rhs` and has the right sign within `ε`. -/
theorem Piece.Ok.within_iff {p : Piece (Option K)} (hp : p.Ok H l h n m) (hl : l ≠ .raw) (δ ε : K) (τ : Env (Option K)) :
    p.out.HoldsWithinAt p.arow δ ε τ ↔ ∃ d, p.c.residual τ = some d ∧ (p.c.kind = .equal → |d| ≤ δ) ∧
      (∀ x, p.kind = .bound x → p.c.kind.Within ε d 0) ∧
      ∀ s, p.slack = some s → ∃ sv, s.evaluate τ = some sv ∧ |d - sv| ≤ δ ∧ p.c.kind.Within ε sv 0 := by
  obtain ⟨k, hk⟩ := hp.exp
  have hexp : p.exp.evaluate τ = p.c.residual τ := subN_val hk τ
  have hphi := hp.prop.1
  have haff : p.isNl = false → p.c.residual τ = (lin τ p.comp.prop.a +. p.comp.prop.b) := by
    intro hn
    rw [← hexp, hp.prop.2]
    refine affine_val hl τ p.exp hp.goodExp ?_
    have := hp.affine
    rw [hn, hp.prop.2] at this
    exact this
  have hkindeq := hp.equal
  have hb1 := hp.bound
  have hle := hp.linEq
  have hli := hp.linIneq
  have hni := hp.nlIneq
  obtain ⟨c, exp, comp, arow, jrow, kind⟩ := p
  cases kind with
  | bound x =>
    obtain ⟨v, hv, h1⟩ := hb1 x rfl
    simp only at hv
    rw [one_def, eq_one_iff] at h1
    subst h1
    have hr := haff rfl
    simp only at hr
    rw [hv] at hr
    simp only [lin, List.map_cons, List.map_nil, osum_cons, osum_nil, oadd_zero, oone_mul] at hr
    simp only [Piece.bnd, reduceCtorEq, iff_false] at hkindeq
    simp only [Piece.slack, reduceCtorEq, false_imp_iff, implies_true, and_true, hkindeq, true_and, PKind.bound.injEq, forall_eq']
    rw [hr]
    have hu : ∀ up, (Piece.mk c exp comp arow jrow (.bound x)).bounds up =
        if (decide (c.kind = .lessEqual)) = up then [(x, FloatOps.neg comp.prop.b, c)] else [] := fun up => rfl
    have hb : (Piece.mk c exp comp arow jrow (.bound x)).out.b = [] := rfl
    have hf : (Piece.mk c exp comp arow jrow (.bound x)).out.f = [] := rfl
    have e1 : (Piece.mk c exp comp arow jrow (.bound x)).out.u = _ := hu true
    have e2 : (Piece.mk c exp comp arow jrow (.bound x)).out.l = _ := hu false
    constructor
    · intro ⟨_, _, h3, h4⟩
      rw [e1] at h3
      rw [e2] at h4
      cases hc : c.kind with
      | equal => exact absurd hc hkindeq
      | lessEqual =>
        simp only [hc, decide_true, if_true, List.mem_singleton, forall_eq] at h3
        obtain ⟨y, w, hy, hw, hyw⟩ := h3
        cases hbb : comp.prop.b with
        | none => rw [hbb] at hw; cases hw
        | some b =>
          rw [hbb] at hw
          simp only [neg_some, Option.some.injEq] at hw
          refine ⟨y + b, by rw [hy]; rfl, ?_⟩
          simp only [CKind.Within]; linarith
      | greaterEqual =>
        simp only [hc, reduceCtorEq, decide_false, if_true, List.mem_singleton, forall_eq] at h4
        obtain ⟨y, w, hy, hw, hyw⟩ := h4
        cases hbb : comp.prop.b with
        | none => rw [hbb] at hw; cases hw
        | some b =>
          rw [hbb] at hw
          simp only [neg_some, Option.some.injEq] at hw
          refine ⟨y + b, by rw [hy]; rfl, ?_⟩
          simp only [CKind.Within]; linarith
    · rintro ⟨d, hd, hrel⟩
      obtain ⟨y, b, hy, hb', rfl⟩ := add_eq_some.1 hd
      refine ⟨by rw [hb]; simp, by rw [hf]; simp, ?_, ?_⟩
      · rw [e1]
        cases hc : c.kind with
        | equal => exact absurd hc hkindeq
        | lessEqual =>
          simp only [hc, CKind.Within] at hrel
          simp only [decide_true, if_true, List.mem_singleton, forall_eq]
          exact ⟨y, -b, hy, by rw [hb']; rfl, by linarith⟩
        | greaterEqual => simp
      · rw [e2]
        cases hc : c.kind with
        | equal => exact absurd hc hkindeq
        | greaterEqual =>
          simp only [hc, CKind.Within] at hrel
          simp only [reduceCtorEq, decide_false, if_true, List.mem_singleton, forall_eq]
          exact ⟨y, -b, hy, by rw [hb']; rfl, by linarith⟩
        | lessEqual => simp
  | linEq es =>
    have hr := haff rfl
    simp only at hr
    have hperm : es.Perm comp.prop.a := hle es rfl
    have hkind : c.kind = .equal := hkindeq.2 rfl
    rw [← lin_perm τ hperm] at hr
    simp only [Piece.slack, reduceCtorEq, false_imp_iff, implies_true, and_true, hkind, true_imp_iff]
    rw [hr]
    have e1 : (Piece.mk c exp comp arow jrow (.linEq es)).out.b = [FloatOps.neg comp.prop.b] := rfl
    have e2 : entriesOf (Piece.mk c exp comp arow jrow (.linEq es)).out.a arow = es := entriesOf_map ..
    constructor
    · intro ⟨h1, _, _, _⟩
      obtain ⟨t, y, ht, h2, h3⟩ := h1 0 _ (by rw [e1]; rfl)
      rw [Nat.add_zero, affineValue_eq, oadd_zero, e2] at h2
      rw [h2]
      cases hb : comp.prop.b with
      | none => rw [hb] at ht; cases ht
      | some b =>
        rw [hb] at ht
        simp only [neg_some, Option.some.injEq] at ht
        refine ⟨y + b, add_some .., ?_⟩
        rwa [← ht, sub_neg_eq_add] at h3
    · rintro ⟨d, hd, hle'⟩
      obtain ⟨y, b, hy, hb', he⟩ := add_eq_some.1 hd
      refine ⟨?_, by simp [Piece.out, Piece.isNl], by simp [Piece.out, Piece.bounds, Piece.bnd], by simp [Piece.out, Piece.bounds, Piece.bnd]⟩
      intro i v hv
      rw [e1] at hv
      cases i with
      | succ i => simp at hv
      | zero =>
        simp only [List.getElem?_cons_zero, Option.some.injEq] at hv
        subst hv
        refine ⟨-b, y, by rw [hb']; rfl, ?_, ?_⟩
        · rw [Nat.add_zero, affineValue_eq, oadd_zero, e2, hy]
        · rw [sub_neg_eq_add, he]; exact hle'
  | linIneq es s =>
    have hr := haff rfl
    simp only at hr
    have hperm : es.Perm comp.prop.a := (hli es s rfl).1
    rw [← lin_perm τ hperm] at hr
    simp only [Piece.bnd, reduceCtorEq, iff_false] at hkindeq
    simp only [Piece.slack, Option.some.injEq, forall_eq', hkindeq, false_imp_iff, reduceCtorEq, implies_true, true_and]
    have e1 : (Piece.mk c exp comp arow jrow (.linIneq es s)).out.b = [FloatOps.neg comp.prop.b] := rfl
    have e2 : entriesOf (Piece.mk c exp comp arow jrow (.linIneq es s)).out.a arow = es ++ [(s, negOne)] := entriesOf_map ..
    have e3 : lin τ (es ++ [(s, negOne)]) = (lin τ es +. (some (-1) *. s.evaluate τ)) := by
      simp [lin, osum_append]
    have hu : ∀ up, (Piece.mk c exp comp arow jrow (.linIneq es s)).bounds up =
        if (decide (c.kind = .lessEqual)) = up then [(s, zero, c)] else [] := fun up => rfl
    have e4 : (Piece.mk c exp comp arow jrow (.linIneq es s)).out.u = _ := hu true
    have e5 : (Piece.mk c exp comp arow jrow (.linIneq es s)).out.l = _ := hu false
    constructor
    · intro ⟨h1, _, h3, h4⟩
      obtain ⟨t, y0, ht, h2, hy0⟩ := h1 0 _ (by rw [e1]; rfl)
      rw [Nat.add_zero, affineValue_eq, oadd_zero, e2, e3] at h2
      obtain ⟨y, z, hy, hz, he⟩ := add_eq_some.1 h2
      obtain ⟨w, sv, hw, hs, hz'⟩ := mul_eq_some.1 hz
      injection hw with hw
      cases hb : comp.prop.b with
      | none => rw [hb] at ht; cases ht
      | some b =>
        rw [hb] at ht hr
        simp only [neg_some, Option.some.injEq] at ht
        rw [hy, add_some] at hr
        refine ⟨y + b, hr, sv, hs, ?_, ?_⟩
        · have : y + b - sv = y0 - t := by subst hw; linarith
          rw [this]; exact hy0
        rw [e4] at h3
        rw [e5] at h4
        cases hc : c.kind with
        | equal => exact absurd hc hkindeq
        | lessEqual =>
          simp only [hc, decide_true, if_true, List.mem_singleton, forall_eq, hs, zero_def, Option.some.injEq] at h3
          obtain ⟨x, v, rfl, rfl, hxv⟩ := h3
          exact hxv
        | greaterEqual =>
          simp only [hc, reduceCtorEq, decide_false, if_true, List.mem_singleton, forall_eq, hs, zero_def, Option.some.injEq] at h4
          obtain ⟨x, v, rfl, rfl, hxv⟩ := h4
          simp only [CKind.Within]; linarith
    · rintro ⟨d, hd, sv, hs, hds, hrel⟩
      rw [hd] at hr
      obtain ⟨y, b, hy, hb', he⟩ := add_eq_some.1 hr.symm
      refine ⟨?_, by simp [Piece.out, Piece.isNl], ?_, ?_⟩
      · intro i v hv
        rw [e1] at hv
        cases i with
        | succ i => simp at hv
        | zero =>
          simp only [List.getElem?_cons_zero, Option.some.injEq] at hv
          subst hv
          refine ⟨-b, y + -1 * sv, by rw [hb']; rfl, ?_, ?_⟩
          · rw [Nat.add_zero, affineValue_eq, oadd_zero, e2, e3, hy, hs, mul_some, add_some]
          · have : y + -1 * sv - -b = d - sv := by linarith
            rw [this]; exact hds
      · rw [e4]
        cases hc : c.kind with
        | equal => exact absurd hc hkindeq
        | lessEqual =>
          simp only [hc, CKind.Within] at hrel
          simp only [decide_true, if_true, List.mem_singleton, forall_eq]
          exact ⟨sv, 0, hs, rfl, hrel⟩
        | greaterEqual => simp
      · rw [e5]
        cases hc : c.kind with
        | equal => exact absurd hc hkindeq
        | greaterEqual =>
          simp only [hc, CKind.Within] at hrel
          simp only [reduceCtorEq, decide_false, if_true, List.mem_singleton, forall_eq]
          exact ⟨sv, 0, hs, rfl, by linarith⟩
        | lessEqual => simp
  | nlEq =>
    have hkind : c.kind = .equal := hkindeq.2 rfl
    simp only [Piece.slack, reduceCtorEq, false_imp_iff, implies_true, and_true, hkind, true_imp_iff]
    have e1 : (Piece.mk c exp comp arow jrow .nlEq).out.f = [comp.phi] := rfl
    simp only at hphi hexp
    constructor
    · intro ⟨_, h2, _, _⟩
      obtain ⟨y, hy, hle'⟩ := h2 comp.phi (by rw [e1]; simp)
      rw [hphi, hexp] at hy
      exact ⟨y, hy, hle'⟩
    · rintro ⟨d, hd, hle'⟩
      refine ⟨by simp [Piece.out, Piece.isLin], ?_, by simp [Piece.out, Piece.bounds, Piece.bnd], by simp [Piece.out, Piece.bounds, Piece.bnd]⟩
      rw [e1]
      simp only [List.mem_singleton, forall_eq]
      rw [hphi, hexp, hd]
      exact ⟨d, rfl, hle'⟩
  | nlIneq s f m1 =>
    obtain ⟨_, ⟨k1, k2, hsub⟩, _⟩ := hni s f m1 rfl
    have hf := subN_val hsub τ
    simp only at hf hphi hexp
    rw [hphi, hexp] at hf
    simp only [Piece.bnd, reduceCtorEq, iff_false] at hkindeq
    simp only [Piece.slack, Option.some.injEq, forall_eq', hkindeq, false_imp_iff, reduceCtorEq, implies_true, true_and]
    have e1 : (Piece.mk c exp comp arow jrow (.nlIneq s f m1)).out.f = [f] := rfl
    have hu : ∀ up, (Piece.mk c exp comp arow jrow (.nlIneq s f m1)).bounds up =
        if (decide (c.kind = .lessEqual)) = up then [(s, zero, c)] else [] := fun up => rfl
    have e4 : (Piece.mk c exp comp arow jrow (.nlIneq s f m1)).out.u = _ := hu true
    have e5 : (Piece.mk c exp comp arow jrow (.nlIneq s f m1)).out.l = _ := hu false
    constructor
    · intro ⟨_, h2, h3, h4⟩
      obtain ⟨y, h2, hy⟩ := h2 f (by rw [e1]; simp)
      rw [hf] at h2
      cases hres : c.residual τ with
      | none => rw [hres] at h2; simp at h2
      | some d =>
        cases hs : s.evaluate τ with
        | none => rw [hres, hs] at h2; simp at h2
        | some sv =>
          rw [hres, hs, sub_some, Option.some.injEq] at h2
          subst h2
          refine ⟨d, rfl, sv, rfl, hy, ?_⟩
          rw [e4] at h3
          rw [e5] at h4
          cases hc : c.kind with
          | equal => exact absurd hc hkindeq
          | lessEqual =>
            simp only [hc, decide_true, if_true, List.mem_singleton, forall_eq, hs, zero_def, Option.some.injEq] at h3
            obtain ⟨x, v, rfl, rfl, hxv⟩ := h3
            exact hxv
          | greaterEqual =>
            simp only [hc, reduceCtorEq, decide_false, if_true, List.mem_singleton, forall_eq, hs, zero_def, Option.some.injEq] at h4
            obtain ⟨x, v, rfl, rfl, hxv⟩ := h4
            simp only [CKind.Within]; linarith
    · rintro ⟨d, hd, sv, hs, hds, hrel⟩
      refine ⟨by simp [Piece.out, Piece.isLin], ?_, ?_, ?_⟩
      · rw [e1]
        simp only [List.mem_singleton, forall_eq]
        rw [hf, hd, hs, sub_some]
        exact ⟨_, rfl, hds⟩
      · rw [e4]
        cases hc : c.kind with
        | equal => exact absurd hc hkindeq
        | lessEqual =>
          simp only [hc, CKind.Within] at hrel
          simp only [decide_true, if_true, List.mem_singleton, forall_eq]
          exact ⟨sv, 0, hs, rfl, hrel⟩
        | greaterEqual => simp
      · rw [e5]
        cases hc : c.kind with
        | equal => exact absurd hc hkindeq
        | greaterEqual =>
          simp only [hc, CKind.Within] at hrel
          simp only [reduceCtorEq, decide_false, if_true, List.mem_singleton, forall_eq]
          exact ⟨sv, 0, hs, rfl, by linarith⟩
        | lessEqual => simp

/-- The components of a chain hold within tolerances iff those of each piece do. -/
theorem PChain.within {ar jr : Nat} {ps : List (Piece (Option K))}
    (hc : PChain H l h n ar jr ps m) (δ ε : K) (τ : Env (Option K)) :
    (ConstrComp.concat (ps.map Piece.out)).HoldsWithinAt ar δ ε τ ↔ ∀ p ∈ ps, p.out.HoldsWithinAt p.arow δ ε τ := by
  have e := hc.rows fun v es => ∃ t y, v = some t ∧ affineValue τ es (some 0) = some y ∧ |y - t| ≤ δ
  constructor
  · rintro ⟨h1, h2, h3, h4⟩ p hp
    simp only [ConstrComp.concat, List.flatMap_map, List.mem_flatMap] at h1 h2 h3 h4
    rw [e] at h1
    refine ⟨fun k v hk => ?_, fun f hf => h2 f ⟨p, hp, hf⟩, fun q hq => h3 q ⟨p, hp, hq⟩, fun q hq => h4 q ⟨p, hp, hq⟩⟩
    cases hl : p.isLin
    · simp [Piece.out, hl] at hk
    · cases k with
      | succ k => simp [Piece.out, hl] at hk
      | zero =>
        simp only [Piece.out, hl, if_true, List.getElem?_cons_zero, Option.some.injEq] at hk
        subst hk
        rw [Nat.add_zero]
        simp only [Piece.out]
        rw [entriesOf_same]
        exact h1 p hp hl
  · intro hh
    constructor
    · simp only [ConstrComp.concat, List.flatMap_map]
      rw [e]
      intro p hp hl
      have := (hh p hp).linear 0 (FloatOps.neg p.comp.prop.b) (by simp [Piece.out, hl])
      rw [Nat.add_zero] at this
      simp only [Piece.out] at this
      rwa [entriesOf_same] at this
    · intro f hf
      simp only [ConstrComp.concat, List.flatMap_map, List.mem_flatMap] at hf
      obtain ⟨p, hp, hf⟩ := hf
      exact (hh p hp).nonlinear f hf
    · intro f hf
      simp only [ConstrComp.concat, List.flatMap_map, List.mem_flatMap] at hf
      obtain ⟨p, hp, hf⟩ := hf
      exact (hh p hp).upper f hf
    · intro f hf
      simp only [ConstrComp.concat, List.flatMap_map, List.mem_flatMap] at hf
      obtain ⟨p, hp, hf⟩ := hf
      exact (hh p hp).lower f hf

end

section
variable {H : HashOrder} {l : Level} {h : Heap (Option K)} {n m : Nat} {cols : List (Node (Option K))} {comp : ModelComp (Option K)}
  {mod : Model (Option K)} {e : Node (Option K)} {ps : List (Piece (Option K))} {xes : List (Node (Option K) × Option K)}
  {ves : List (Node (Option K) × Nat)} {sp : StdProb (Option K)}

/-- The bounds of the standard problem at a point, within a tolerance. -/
theorem bounds_within (hc : ColsOk l h cols) (ho : CompOk cols comp) (hbd : ∀ e ∈ comp.constr.u ++ comp.constr.l, ∃ v, e.2.1 = some v)
    (ε : K) {xs : List (Option K)} (hx : xs.length = cols.length) :
    (∀ (i : Nat) (x : Option K), xs[i]? = some x → ∃ t lo up, x = some t ∧ (stdL cols comp)[i]? = some (some lo) ∧
        (stdU cols comp)[i]? = some (some up) ∧ lo - ε ≤ t ∧ t ≤ up + ε) ↔
      (∀ x ∈ xs, ∃ t : K, x = some t ∧ -(10 ^ 8) - ε ≤ t ∧ t ≤ 10 ^ 8 + ε) ∧
      (∀ e ∈ comp.constr.u, ∃ x v, e.1.evaluate (pointEnv cols xs) = some x ∧ e.2.1 = some v ∧ x ≤ v + ε) ∧
      (∀ e ∈ comp.constr.l, ∃ x v, e.1.evaluate (pointEnv cols xs) = some x ∧ e.2.1 = some v ∧ v - ε ≤ x) := by
  have hu : ∀ (i : Nat) (y : Node (Option K)), cols[i]? = some y → (stdU cols comp)[i]? = some (upT comp y).1 := by
    intro i y hy; simp [stdU, hy]
  have hlo : ∀ (i : Nat) (y : Node (Option K)), cols[i]? = some y → (stdL cols comp)[i]? = some (loT comp y).1 := by
    intro i y hy; simp [stdL, hy]
  have hinf : (FloatOps.neg inf : Option K) = some (-(10 ^ 8)) := rfl
  have hcol : ∀ (i : Nat) (x : Option K), xs[i]? = some x → ∃ y, cols[i]? = some y ∧ y ∈ cols ∧ y.evaluate (pointEnv cols xs) = x := by
    intro i x hi
    obtain ⟨hlt, hg⟩ := List.getElem?_eq_some_iff.1 hi
    have hlt' : i < cols.length := by omega
    refine ⟨cols[i], List.getElem?_eq_getElem hlt', List.getElem_mem hlt', ?_⟩
    rw [evaluate_col hc (List.getElem_mem hlt'), hc.col_get hlt', hi]; rfl
  have hb : ∀ y ∈ cols, ∃ x, xs[colOf cols y]? = some x ∧ cols[colOf cols y]? = some y ∧
      y.evaluate (pointEnv cols xs) = x := by
    intro y hy
    have h1 := hc.col hy
    have hlt : colOf cols y < xs.length := by omega
    refine ⟨_, List.getElem?_eq_getElem hlt, h1.2, ?_⟩
    rw [evaluate_col hc hy, List.getElem?_eq_getElem hlt]; rfl
  constructor
  · intro hh
    refine ⟨fun x hx' => ?_, fun e he => ?_, fun e he => ?_⟩
    · obtain ⟨i, hi, hix⟩ := List.getElem_of_mem hx'
      have hi' : xs[i]? = some x := by rw [List.getElem?_eq_getElem hi, hix]
      obtain ⟨t, lo, up, h1, h2, h3, h4, h5⟩ := hh i x hi'
      obtain ⟨y, hy, -, -⟩ := hcol i x hi'
      rw [hlo i y hy] at h2
      rw [hu i y hy] at h3
      obtain ⟨up', a1, a2, -⟩ := tightest_up (10 ^ 8) comp.constr.u y
      obtain ⟨lo', b1, b2, -⟩ := tightest_lo (-(10 ^ 8)) comp.constr.l y
      injection h2 with h2; injection h3 with h3
      unfold upT at h3; unfold loT at h2
      rw [Exact.inf_def, a1] at h3
      rw [hinf, b1] at h2
      injection h2 with h2; injection h3 with h3
      subst h2 h3
      have c1 := ((b2 (t + ε)).1 (by linarith)).1
      have c2 := ((a2 (t - ε)).1 (by linarith)).1
      exact ⟨t, h1, by linarith, by linarith⟩
    · obtain ⟨x, hx', hy, hev⟩ := hb _ (ho.u e he)
      obtain ⟨t, lo, up, h1, h2, h3, h4, h5⟩ := hh _ x hx'
      obtain ⟨v, hv⟩ := hbd e (by simp [he])
      rw [hu _ _ hy] at h3
      obtain ⟨up', a1, a2, -⟩ := tightest_up (10 ^ 8) comp.constr.u e.1
      injection h3 with h3
      unfold upT at h3
      rw [Exact.inf_def, a1] at h3
      injection h3 with h3
      subst h3
      have := ((a2 (t - ε)).1 (by linarith)).2 e he (ptrEq_refl _) v hv
      exact ⟨t, v, by rw [hev, h1], hv, by linarith⟩
    · obtain ⟨x, hx', hy, hev⟩ := hb _ (ho.l e he)
      obtain ⟨t, lo, up, h1, h2, h3, h4, h5⟩ := hh _ x hx'
      obtain ⟨v, hv⟩ := hbd e (by simp [he])
      rw [hlo _ _ hy] at h2
      obtain ⟨lo', b1, b2, -⟩ := tightest_lo (-(10 ^ 8)) comp.constr.l e.1
      injection h2 with h2
      unfold loT at h2
      rw [hinf, b1] at h2
      injection h2 with h2
      subst h2
      have := ((b2 (t + ε)).1 (by linarith)).2 e he (ptrEq_refl _) v hv
      exact ⟨t, v, by rw [hev, h1], hv, by linarith⟩
  · rintro ⟨h1, h2, h3⟩ i x hi
    obtain ⟨y, hy, hym, hev⟩ := hcol i x hi
    obtain ⟨t, rfl, ht1, ht2⟩ := h1 x (List.mem_of_getElem? hi)
    obtain ⟨up', a1, a2, -⟩ := tightest_up (10 ^ 8) comp.constr.u y
    obtain ⟨lo', b1, b2, -⟩ := tightest_lo (-(10 ^ 8)) comp.constr.l y
    have c1 : lo' ≤ t + ε := by
      refine (b2 _).2 ⟨by linarith, fun e he hey v hv => ?_⟩
      have heq := ((hc.good _ (ho.l e he)).ptrEq_iff (hc.good y hym)).1 hey
      obtain ⟨x', v', c1, c2, c3⟩ := h3 e he
      rw [heq, hev] at c1
      rw [hv] at c2
      injection c1 with c1; injection c2 with c2
      subst c1 c2
      linarith
    have c2 : t - ε ≤ up' := by
      refine (a2 _).2 ⟨by linarith, fun e he hey v hv => ?_⟩
      have heq := ((hc.good _ (ho.u e he)).ptrEq_iff (hc.good y hym)).1 hey
      obtain ⟨x', v', c1, c2, c3⟩ := h2 e he
      rw [heq, hev] at c1
      rw [hv] at c2
      injection c1 with c1; injection c2 with c2
      subst c1 c2
      linarith
    exact ⟨t, lo', up', rfl, by rw [hlo i y hy]; unfold loT; rw [hinf, b1], by rw [hu i y hy]; unfold upT; rw [Exact.inf_def, a1],
      by linarith, by linarith⟩

/-- The integrality conditions at a point, within a tolerance. -/
theorem integral_within (hc : ColsOk l h cols) (η : K) {xs : List (Option K)} (hx : xs.length = cols.length) :
    (∀ i : Nat, (stdP cols)[i]? = some true → ∃ (t : K) (z : ℤ), xs[i]? = some (some t) ∧ |t - z| ≤ η) ↔
      ∀ x ∈ cols, x.isInteger = true → ∃ (t : K) (z : ℤ), x.evaluate (pointEnv cols xs) = some t ∧ |t - z| ≤ η := by
  constructor
  · intro hh x hxm hi
    have h1 := hc.col hxm
    obtain ⟨t, z, hz, hle⟩ := hh (colOf cols x) (by simp [stdP, h1.2, hi])
    exact ⟨t, z, by rw [evaluate_col hc hxm, hz]; rfl, hle⟩
  · intro hh i hi
    simp only [stdP, List.getElem?_map, Option.map_eq_some_iff] at hi
    obtain ⟨y, hy, hyi⟩ := hi
    obtain ⟨hlt, hg⟩ := List.getElem?_eq_some_iff.1 hy
    have hym := List.mem_of_getElem? hy
    obtain ⟨t, z, hz, hle⟩ := hh y hym hyi
    have hlt' : i < xs.length := by omega
    rw [evaluate_col hc hym, ← hg, hc.col_get hlt, List.getElem?_eq_getElem hlt'] at hz
    exact ⟨t, z, by rw [List.getElem?_eq_getElem hlt']; simpa using hz, hle⟩

/-- Points that satisfy the standard problem within tolerances. -/
theorem SpFacts.within (hf : SpFacts H l h n m mod comp e ps cols xes ves sp) (hl : l ≠ .raw)
    (hd : ∀ c ∈ mod.constraints, ∃ σ d, c.residual σ = some d) {q : Minlp (Option K)} (hq : q ∈ sp.prob.views) (δ ε η : K)
    (xs : List (Option K)) :
    q.FeasibleWithin δ ε η xs ↔ xs.length = cols.length ∧
      (∀ p ∈ ps, ∃ d, p.c.residual (pointEnv cols xs) = some d ∧ (p.c.kind = .equal → |d| ≤ δ) ∧
        (∀ x, p.kind = .bound x → p.c.kind.Within ε d 0) ∧
        ∀ s, p.slack = some s → ∃ sv, s.evaluate (pointEnv cols xs) = some sv ∧ |d - sv| ≤ δ ∧ p.c.kind.Within ε sv 0) ∧
      (∀ x ∈ xs, ∃ t : K, x = some t ∧ -(10 ^ 8) - ε ≤ t ∧ t ≤ 10 ^ 8 + ε) ∧
      ∀ x ∈ cols, x.isInteger = true → ∃ (t : K) (z : ℤ), x.evaluate (pointEnv cols xs) = some t ∧ |t - z| ≤ η := by
  have hv := hf.view hq
  have hnx : q.nx = cols.length := by simp [Minlp.nx, hv.a, stdA, Coo.cols]
  obtain ⟨k, -, hch⟩ := hf.mf.chain
  have hpieces := (hch.within δ ε (pointEnv cols xs)).trans (forall₂_congr fun p hp => by
    obtain ⟨n', m', -, -, hok⟩ := hf.mf.piece hp
    exact hok.within_iff hl δ ε _)
  rw [← hpieces, ← hf.mf.constr]
  have hbd := hf.mf.bdef hl hd
  constructor
  · rintro ⟨h1, h2, h3, h4, h5⟩
    rw [hnx] at h1
    rw [hv.l, hv.u, bounds_within hf.cok hf.cmpOk hbd ε h1] at h4
    rw [hv.p, integral_within hf.cok η h1] at h5
    refine ⟨h1, ⟨fun i v hi => ?_, fun f hff => ?_, h4.2.1, h4.2.2⟩, h4.1, h5⟩
    · rw [Nat.zero_add]
      obtain ⟨t, y, ht, hr, hle⟩ := h2 i v (by rw [hv.b]; exact hi)
      rw [hv.a, row_value hf.cok hf.cmpOk] at hr
      exact ⟨t, y, ht, hr, hle⟩
    · obtain ⟨q', hq', hz⟩ := h3
      obtain ⟨q'', hq'', hff'⟩ := hv.eval xs h1
      rw [hq'] at hq''
      injection hq'' with hq''
      subst hq''
      exact hz _ (by rw [hff']; exact List.mem_map.2 ⟨f, hff, rfl⟩)
  · rintro ⟨h1, ⟨g1, g2, g3, g4⟩, h4, h5⟩
    refine ⟨by rw [hnx, h1], fun i v hi => ?_, ?_, ?_, ?_⟩
    · rw [hv.b] at hi
      obtain ⟨t, y, ht, hr, hle⟩ := g1 i v hi
      rw [Nat.zero_add] at hr
      exact ⟨t, y, ht, by rw [hv.a, row_value hf.cok hf.cmpOk, hr], hle⟩
    · obtain ⟨q', hq', hff'⟩ := hv.eval xs h1
      refine ⟨q', hq', fun v hvm => ?_⟩
      rw [hff'] at hvm
      obtain ⟨f, hff, rfl⟩ := List.mem_map.1 hvm
      exact g2 f hff
    · rw [hv.l, hv.u, bounds_within hf.cok hf.cmpOk hbd ε h1]
      exact ⟨h4, g3, g4⟩
    · rw [hv.p, integral_within hf.cok η h1]
      exact h5

end

end Verif
